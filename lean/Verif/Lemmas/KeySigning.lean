import Verif.Lemmas.KeyMethods
import Verif.Props.Data
import Verif.Lemmas.ValidatorRaise
/-
Signing with a KeyChain, and making keys and identities.
-/
namespace PyNDN
namespace KeyChain
open PSync (dictGet dictSet dictDel dictGet_none dictGet_some)
open Spec
open Spec.KeyChain

variable {P : Params} {strict : Bool} {s : KC}

theorem DefaultKeyIs_store {s s' : KC} (h : s'.store = s.store) {n k : Name} (hd : DefaultKeyIs strict s' n k) : DefaultKeyIs strict s n k := by
  obtain ⟨h1, h2⟩ := hd
  exact ⟨h1, fun hs => by rw [← h]; exact h2 hs⟩

theorem signatureInfoOf_spec (S : Sound P) (hs : Coh P strict s) {k : Name} {r : Nat} (hl : LiveKey s k r) (info : SigningInfo) :
    (info.sha256Algorithm = false ∧ signatureInfoOf P info r s = (.error .keyChain, s)) ∨
    ∃ p si, dictGet k s.tpm = some p ∧ dictGet k s.store.keys = some (P.publicKey p) ∧ SignedWith P info k (P.publicKey p) si ∧ signatureInfoOf P info r s = (.ok (k, si), s) := by
  obtain ⟨key, hk, hf, _, _⟩ := hs.stored hl
  obtain ⟨p, hp, hpb⟩ := hs.tpm k _ hf.bits
  have hb := hf.bits
  rw [← hpb] at hb
  unfold signatureInfoOf
  rw [keyImpl_some hk, hf.name, ← hpb]
  cases ha : info.sha256Algorithm with
  | false =>
    refine Or.inl ⟨rfl, ?_⟩
    rcases S.type p with h | h <;> rw [h] <;> rfl
  | true =>
    refine Or.inr ⟨p, ?_⟩
    rcases S.type p with h | h <;> rw [h]
    · exact ⟨_, hp, hb, Or.inl ⟨h, rfl⟩, rfl⟩
    · exact ⟨_, hp, hb, Or.inr ⟨h, rfl⟩, rfl⟩

/-- What `prepareSignatureInfo` gives. -/
def Prepared (P : Params) (strict : Bool) (s : KC) (info : SigningInfo) (k : Name) (si : SigInfo) : Prop :=
  (ByDigest s info.signer ∧ k = digestIdentity ∧ si = .digest) ∨
  ∃ p, Chosen strict s info.signer k ∧ dictGet k s.tpm = some p ∧ dictGet k s.store.keys = some (P.publicKey p) ∧ SignedWith P info k (P.publicKey p) si

theorem prepare_key (S : Sound P) {s1 : KC} (h1 : Coh P strict s1) (h2 : Quiet s s1) {k : Name} {r : Nat} (hl : LiveKey s1 k r) (info : SigningInfo) (hc : Chosen strict s info.signer k) :
    After (signatureInfoOf P info r) s1 fun x s' => Coh P strict s' ∧ Quiet s s' ∧
    match x with
    | .ok (k, si) => Prepared P strict s info k si
    | .error _ => info.sha256Algorithm = false ∨ ¬ Ready s info.signer := by
  unfold After
  rcases signatureInfoOf_spec S h1 hl info with ⟨ha, e⟩ | ⟨p, si, q1, q2, q3, e⟩
  · rw [e]; exact ⟨h1, h2, Or.inl ha⟩
  · rw [e]
    refine ⟨h1, h2, Or.inr ⟨p, hc, ?_, ?_, q3⟩⟩
    · rw [← h2.tpm]; exact q1
    · rw [← h2.store]; exact q2

theorem prepare_default (S : Sound P) {s1 : KC} (h1 : Coh P strict s1) (h2 : Quiet s s1) {n : Name} {h : Nat} (hl : LiveId s1 n h) (info : SigningInfo)
    (hc : ∀ k, DefaultKeyIs strict s n k → Chosen strict s info.signer k) (hr : Ready s info.signer → dictGet n s.store.defaultKeys ≠ none) :
    After (do let k ← (idGetDefaultKey P h).exceptPib (raise .signing); signatureInfoOf P info k) s1 fun x s' => Coh P strict s' ∧ Quiet s s' ∧
    match x with
    | .ok (k, si) => Prepared P strict s info k si
    | .error _ => info.sha256Algorithm = false ∨ ¬ Ready s info.signer := by
  refine After.bind (After.exceptPib ((idGetDefaultKey_spec S h1 hl).mono ?_))
  rintro r s2 ⟨g1, g2, g3⟩
  cases r with
  | error e =>
    obtain ⟨rfl, g3⟩ := g3
    refine ⟨g1, h2.trans g2, Or.inr fun hh => hr hh ?_⟩
    rw [← h2.store]; exact g3
  | ok r =>
    obtain ⟨k, q1, q2, q3⟩ := g3
    exact prepare_key S g1 (h2.trans g2) q1 info (hc k (DefaultKeyIs_store h2.store ⟨q2, q3⟩))

theorem prepare_named (S : Sound P) (hs : Coh P strict s) (n k : Name) (hk : isValidKeyName k = true → identityOfKey k = n) (info : SigningInfo) (hc : Chosen strict s info.signer k)
    (hr : Ready s info.signer → dictGet k s.store.keys ≠ none) :
    After (do let r ← (do keyGet P (← getIdentity n) k).exceptPib (raise .signing); signatureInfoOf P info r) s fun x s' => Coh P strict s' ∧ Quiet s s' ∧
    match x with
    | .ok (k, si) => Prepared P strict s info k si
    | .error _ => info.sha256Algorithm = false ∨ ¬ Ready s info.signer := by
  refine After.bind (After.exceptPib (After.bind ((getIdentity_spec hs n).mono ?_)))
  rintro x s1 ⟨g1, g2, g3⟩
  cases x with
  | error e =>
    obtain ⟨rfl, g3⟩ := g3
    refine ⟨g1, g2, Or.inr fun hh => ?_⟩
    cases hb : dictGet k s.store.keys with
    | none => exact hr hh hb
    | some b =>
      obtain ⟨q1, q2⟩ := hs.cons.key k b hb
      rw [hk q1] at q2
      exact g3 q2
  | ok h =>
    refine (keyGet_spec S g1 g3.1 k).mono ?_
    rintro x s2 ⟨f1, f2, f3⟩
    cases x with
    | error e =>
      have : ¬ Ready s info.signer := fun hh => by
        cases hb : dictGet k s.store.keys with
        | none => exact hr hh hb
        | some b =>
          obtain ⟨q1, q2⟩ := hs.cons.key k b hb
          rcases f3 with ⟨f3, _⟩ | ⟨_, f3⟩
          · exact f3 ⟨q1, hk q1⟩
          · rw [g2.store, hb] at f3; nomatch f3
      rcases f3 with ⟨_, rfl, _⟩ | ⟨rfl, _⟩
      · exact ⟨f1, g2.trans f2, Or.inr this⟩
      · exact ⟨f1, g2.trans f2, Or.inr this⟩
    | ok r => exact prepare_key S f1 (g2.trans f2) f3.1 info hc

theorem prepareSignatureInfo_spec (S : Sound P) (hs : Coh P strict s) (info : SigningInfo) (hl : SignerLive s info.signer) :
    After (prepareSignatureInfo P info) s fun x s' => Coh P strict s' ∧ Quiet s s' ∧
    match x with
    | .ok (k, si) => Prepared P strict s info k si
    | .error _ => info.sha256Algorithm = false ∨ ¬ Ready s info.signer := by
  have hq := Quiet.refl s
  unfold prepareSignatureInfo
  cases hsig : info.signer with
  | null =>
    dsimp only
    refine After.bind (After.exceptPib (After.bind ((getDefaultIdentity_spec hs).mono ?_)))
    rintro x s1 ⟨g1, g2, g3⟩
    cases x with
    | error e =>
      obtain ⟨rfl, g3⟩ := g3
      exact ⟨g1, g2, Or.inl ⟨by rw [hsig]; exact g3, rfl, rfl⟩⟩
    | ok h =>
      obtain ⟨n, q1, q2⟩ := g3
      have := prepare_default S g1 g2 q1 info (fun k hk => by rw [hsig]; exact ⟨n, q2, hk⟩) (fun hh => by rw [hsig] at hh; exact hh n q2)
      rw [hsig] at this
      exact this
  | id n o =>
    cases o with
    | none =>
      dsimp only
      refine After.bind (After.exceptPib ((getIdentity_spec hs n).mono ?_))
      rintro x s1 ⟨g1, g2, g3⟩
      cases x with
      | error e =>
        obtain ⟨rfl, g3⟩ := g3
        exact ⟨g1, g2, Or.inr fun hh => g3 hh.1⟩
      | ok h =>
        have := prepare_default S g1 g2 g3.1 info (fun k hk => by rw [hsig]; exact hk) (fun hh => by rw [hsig] at hh; exact hh.2)
        rw [hsig] at this
        exact this
    | some h =>
      dsimp only
      rw [hsig] at hl
      obtain ⟨m, hm⟩ := hl
      have := prepare_default S hs hq hm info (fun k hk => by rw [hsig]; exact ⟨m, hm, hk⟩) (fun hh => by rw [hsig] at hh; exact hh m hm)
      rw [hsig] at this
      exact this
  | key k o =>
    cases o with
    | none =>
      dsimp only
      refine After.bind ?_
      cases hv : isValidKeyName k with
      | false =>
        refine ⟨hs, hq, Or.inr fun hh => ?_⟩
        cases hb : dictGet k s.store.keys with
        | none => exact hh hb
        | some b =>
          rw [(hs.cons.key k b hb).1] at hv
          nomatch hv
      | true =>
        have := prepare_named S hs (identityOfKey k) k (fun _ => rfl) info (by rw [hsig]; rfl) (fun hh => by rw [hsig] at hh; exact hh)
        rw [hsig] at this
        exact this
    | some r =>
      dsimp only
      rw [hsig] at hl
      obtain ⟨k', hk'⟩ := hl
      have := prepare_key S hs hq hk' info (by rw [hsig]; exact hk')
      rw [hsig] at this
      exact this
  | cert c =>
    dsimp only
    refine After.bind ?_
    cases hv : isCertName c with
    | false =>
      refine ⟨hs, hq, Or.inr fun hh => ?_⟩
      have := hh.1
      rw [hv] at this
      nomatch this
    | true =>
      have := prepare_named S hs (identityOfCert c) (keyOfCert c) (fun _ => (identityOfCert_eq c).symm) info (by rw [hsig]; rfl) (fun hh => by rw [hsig] at hh; exact hh.2)
      rw [hsig] at this
      exact this
  | sha256 => exact ⟨hs, hq, Or.inl ⟨by rw [hsig]; trivial, rfl, rfl⟩⟩

theorem digestIdentity_not_key : isValidKeyName digestIdentity = false := by decide +kernel

/-- The signature value for a buffer. -/
def SignatureOf (P : Params) (s : KC) (k : Name) (random : Nat) (buffer : Bytes) : Bytes :=
  if k = digestIdentity then P.sha256 buffer else ((dictGet k s.tpm).map fun p => P.sign p random buffer).getD []

theorem signBuffer_spec (hs : Coh P strict s) {info : SigningInfo} {k : Name} {si : SigInfo} {s0 : KC} (hq : Quiet s0 s) (hp : Prepared P strict s0 info k si)
    (hs0 : Coh P strict s0) (random : Nat) (buffer : Bytes) :
    ∃ s', signBuffer P random buffer k s = (.ok (some (SignatureOf P s0 k random buffer)), s') ∧ Coh P strict s' ∧ Quiet s0 s' := by
  unfold signBuffer SignatureOf
  rcases hp with ⟨_, rfl, _⟩ | ⟨p, _, h1, h2, _⟩
  · rw [if_pos (equals_iff.2 rfl), if_pos rfl]
    exact ⟨s, rfl, hs, hq⟩
  · have hne : k ≠ digestIdentity := by
      rintro rfl
      have := (hs0.cons.key _ _ h2).1
      rw [digestIdentity_not_key] at this
      nomatch this
    rw [if_neg (fun hh => hne (equals_iff.1 hh)), if_neg hne]
    obtain ⟨s', e, g1, g2⟩ := tpmSign_spec hs random buffer k
    refine ⟨s', ?_, g1, hq.trans g2⟩
    rw [e, hq.tpm, h1]
    rfl

/-- What `sign(data)` gives. -/
structure SignedData (P : Params) (strict : Bool) (s : KC) (d : Data) (info : SigningInfo) (random : Nat) (d' : Data) : Prop where
  same : d' = { d with signature := d'.signature }
  signed : ∃ k, Prepared P strict s info k d'.signature.info ∧
    ∃ wire b e, encodeData { d with signature := { info := d'.signature.info } } = .ok (wire, b, e) ∧
      d'.signature.signature = some (SignatureOf P s k random (signedPortion wire b e))
  encodes : ∃ wire b e, encodeData d' = .ok (wire, b, e)

theorem lift_bind_ok {σ α β : Type} {r : Except Err α} {a : α} (h : r = .ok a) (f : α → M σ β) (s : σ) : (lift r >>= f) s = f a s := by subst h; rfl
theorem lift_bind_error {σ α β : Type} {r : Except Err α} {e : Err} (h : r = .error e) (f : α → M σ β) (s : σ) : (lift r >>= f) s = (.error (.py e), s) := by subst h; rfl

theorem signData_spec (S : Sound P) (hs : Coh P strict s) (d : Data) (info : SigningInfo) (random : Nat) (hl : SignerLive s info.signer) :
    After (signData P d info random) s fun x s' => Coh P strict s' ∧ Quiet s s' ∧
    match x with
    | .ok d' => SignedData P strict s d info random d'
    | .error _ => info.sha256Algorithm = false ∨ ¬ Ready s info.signer ∨ ∃ k si, Prepared P strict s info k si ∧ ¬ DataOk { d with signature := { info := si } } := by
  unfold signData
  refine After.bind ((prepareSignatureInfo_spec S hs info hl).mono ?_)
  rintro x s1 ⟨g1, g2, g3⟩
  cases x with
  | error e => exact ⟨g1, g2, g3.elim Or.inl fun h => Or.inr (Or.inl h)⟩
  | ok x =>
    obtain ⟨k, si⟩ := x
    dsimp only at g3 ⊢
    unfold After
    cases he : encodeData { d with signature := { info := si } } with
    | error e =>
      rw [lift_bind_error rfl]
      refine ⟨g1, g2, Or.inr (Or.inr ⟨k, si, g3, fun hok => ?_⟩)⟩
      obtain ⟨_, _, _, _, h1, _⟩ := C22_encoding _ hok
      rw [he] at h1
      nomatch h1
    | ok x =>
      obtain ⟨wire, b, e⟩ := x
      rw [lift_bind_ok rfl]
      dsimp only
      obtain ⟨s2, e2, f1, f2⟩ := signBuffer_spec g1 g2 g3 hs random (signedPortion wire b e)
      rw [bind_ok e2]
      cases he2 : encodeData { d with signature := { info := si, signature := some (SignatureOf P s k random (signedPortion wire b e)) } } with
      | error _ =>
        rw [lift_bind_error rfl]
        refine ⟨f1, f2, Or.inr (Or.inr ⟨k, si, g3, fun hok => ?_⟩)⟩
        obtain ⟨_, _, _, _, h1, _⟩ := C22_encoding { d with signature := { info := si, signature := some (SignatureOf P s k random (signedPortion wire b e)) } } hok
        rw [he2] at h1
        nomatch h1
      | ok x =>
        obtain ⟨w2, b2, e2⟩ := x
        rw [lift_bind_ok rfl]
        exact ⟨f1, f2, ⟨rfl, ⟨k, g3, wire, b, e, he, rfl⟩, ⟨w2, b2, e2, he2⟩⟩⟩

/-- What `sign(interest)` gives. -/
structure SignedInterest (P : Params) (strict : Bool) (s : KC) (i : Interest) (info : SigningInfo) (random : Nat) (nonce : Nat → UInt8) (i' : Interest) : Prop where
  signed : ∃ k si encoded wire b e, Prepared P strict s info k si ∧ encodeSignatureInfo si [] = .ok encoded ∧
    encodeInterest { i with name := i.name ++ [Component.generic encoded] ++ [Component.generic []], nonce := none } nonce = .ok (wire, b, e) ∧
    i' = { i with name := i.name ++ [Component.generic encoded] ++ [Component.generic (writeBlobTlv 23 (some (SignatureOf P s k random (signedPortion wire b e))) [])], nonce := none }

theorem signInterest_spec (S : Sound P) (hs : Coh P strict s) (i : Interest) (info : SigningInfo) (random : Nat) (nonce : Nat → UInt8) (hl : SignerLive s info.signer) :
    After (signInterest P i info random nonce) s fun x s' => Coh P strict s' ∧ Quiet s s' ∧
    match x with
    | .ok i' => SignedInterest P strict s i info random nonce i'
    | .error _ => info.sha256Algorithm = false ∨ ¬ Ready s info.signer ∨ ∃ k si, Prepared P strict s info k si ∧
        ((∃ e, encodeSignatureInfo si [] = .error e) ∨ ∃ encoded e, encodeSignatureInfo si [] = .ok encoded ∧
          encodeInterest { i with name := i.name ++ [Component.generic encoded] ++ [Component.generic []], nonce := none } nonce = .error e) := by
  unfold signInterest
  refine After.bind ((prepareSignatureInfo_spec S hs info hl).mono ?_)
  rintro x s1 ⟨g1, g2, g3⟩
  cases x with
  | error e => exact ⟨g1, g2, g3.elim Or.inl fun h => Or.inr (Or.inl h)⟩
  | ok x =>
    obtain ⟨k, si⟩ := x
    dsimp only at g3 ⊢
    unfold After
    cases he : encodeSignatureInfo si [] with
    | error e => exact ⟨g1, g2, Or.inr (Or.inr ⟨k, si, g3, Or.inl ⟨e, he⟩⟩)⟩
    | ok encoded =>
      rw [lift_bind_ok rfl]
      cases he2 : encodeInterest { i with name := i.name ++ [Component.generic encoded] ++ [Component.generic []], nonce := none } nonce with
      | error e => exact ⟨g1, g2, Or.inr (Or.inr ⟨k, si, g3, Or.inr ⟨encoded, e, he, he2⟩⟩)⟩
      | ok x =>
        obtain ⟨wire, b, e⟩ := x
        rw [lift_bind_ok rfl]
        dsimp only
        obtain ⟨s2, e2, f1, f2⟩ := signBuffer_spec g1 g2 g3 hs random (signedPortion wire b e)
        rw [bind_ok e2]
        exact ⟨f1, f2, ⟨k, si, encoded, wire, b, e, g3, he, he2, rfl⟩⟩

/-! ### Certificates of own keys -/

theorem isValidCertName_eq (n : Name) : Validator.isValidCertName n = .ok (isCertName n) := by
  unfold Validator.isValidCertName isCertName
  by_cases h : n.length ≥ 4
  · rw [if_pos h]
    have e := Validator.pyIndex_neg n 4 (by omega) h
    rw [show (-4 : Int) = -((4 : Nat) : Int) from rfl, e]
    rw [List.getElem?_eq_getElem (by omega), decide_eq_true h]
    rfl
  · rw [if_neg h, decide_eq_false h]
    rfl

theorem checkCert_ok {c : Data} {bits : Bytes} (h1 : isCertName c.name = true) (h2 : c.metaInfo.type = 2) (h3 : c.metaInfo.freshnessPeriod ≠ none)
    (h4 : c.content = some bits) (h5 : bits ≠ []) : checkCert c = .ok () := by
  unfold checkCert Validator.checkFormat
  dsimp only
  rw [isValidCertName_eq, h1]
  show (if (!true) = true then .error .value else if c.metaInfo.type ≠ 2 then .error .value else if c.metaInfo.freshnessPeriod = none then .error .type else
        if blobSize c.content = 0 then .error .value else (.ok () : Except Err Unit)) = .ok ()
  rw [if_neg (by decide), if_neg (by rw [h2]; decide), if_neg h3, if_neg]
  rw [h4]
  show bits.length ≠ 0
  exact fun h => h5 (List.length_eq_zero_iff.1 h)

theorem checkCert_content {c : Data} (h : checkCert c = .ok ()) : isCertName c.name = true ∧ ∃ b, c.content = some b ∧ b ≠ [] := by
  unfold checkCert Validator.checkFormat at h
  dsimp only at h
  rw [isValidCertName_eq] at h
  cases hc : isCertName c.name with
  | false => rw [hc] at h; nomatch h
  | true =>
    rw [hc] at h
    have h' : (if (!true) = true then .error .value else if c.metaInfo.type ≠ 2 then .error .value else if c.metaInfo.freshnessPeriod = none then .error .type else
        if blobSize c.content = 0 then .error .value else (.ok () : Except Err Unit)) = .ok () := h
    rw [if_neg (by decide)] at h'
    split at h'
    · nomatch h'
    · split at h'
      · nomatch h'
      · split at h'
        · nomatch h'
        · rename_i hb
          refine ⟨rfl, ?_⟩
          cases hcc : c.content with
          | none => rw [hcc] at hb; exact absurd rfl hb
          | some b => rw [hcc] at hb; exact ⟨b, rfl, fun hh => hb (by rw [hh]; rfl)⟩

/-- A certificate for the key can be encoded. -/
def SelfSignable (k : Name) (now : Int) : Prop := CanonicalName k ∧ (∃ v, Component.fromVersion now = .ok v) ∧ ValidityOk (selfPeriod now)

theorem fromVersion_canonical {n : Int} {v : Component} (h : Component.fromVersion n = .ok v) : Canonical v := by
  unfold Component.fromVersion Component.fromNumberWithMarker at h
  cases h1 : writeNonNegativeInteger n [] with
  | error e => rw [h1] at h; nomatch h
  | ok o =>
    rw [h1] at h
    cases h2 : writeNonNegativeInteger ((0xFD : UInt8).toNat) o with
    | error e =>
      have h' : (writeNonNegativeInteger ((0xFD : UInt8).toNat) o >>= fun out => .ok (⟨.generic, out⟩ : Component)) = .ok v := h
      rw [h2] at h'; nomatch h'
    | ok o2 =>
      have h' : (writeNonNegativeInteger ((0xFD : UInt8).toNat) o >>= fun out => .ok (⟨.generic, out⟩ : Component)) = .ok v := h
      rw [h2] at h'
      cases h'
      trivial

/-- How `addCertificate` changes the stored PIB. -/
structure CertAdded (s s' : KC) (k : Name) (c : Data) : Prop where
  keys : ∀ k', dictGet k' s'.store.keys = dictGet k' s.store.keys
  identities : s'.store.identities = s.store.identities
  certs : ∀ y, dictGet y s'.store.certs = if y = c.name then some c else dictGet y s.store.certs
  defaultCerts : ∀ k', dictGet k' s'.store.defaultCerts = if k' = k ∧ dictGet k' s.store.defaultCerts = none then some c.name else dictGet k' s.store.defaultCerts
  defaultKeys : ∀ n k', dictGet n s.store.defaultKeys = some k' → dictGet n s'.store.defaultKeys = some k'
  defaultIdentity : ∀ n, s.store.defaultIdentity = some n → s'.store.defaultIdentity = some n

theorem selfSign_spec (S : Sound P) (hs : Coh P strict s) {k : Name} {r : Nat} (hl : LiveKey s k r) (now : Int) (random : Nat)
    (hst : strict = true → ∀ v, Component.fromVersion now = .ok v → dictGet (selfCertName k v) s.store.certs = none) :
    After (selfSign P r now random) s fun x s' => Coh P strict s' ∧ Ext s s' ∧ s'.tpm = s.tpm ∧
    match x with
    | .ok c => ∃ v d, Component.fromVersion now = .ok v ∧ c.name = selfCertName k v ∧ c.content = dictGet k s.store.keys ∧ c.content = d.content ∧ checkCert c = .ok () ∧ c.metaInfo = { type := 2, freshnessPeriod := some 3600000 } ∧
        SignedData P strict s d { signer := .key k (some r), validity := setPeriod now (now + 20 * 365 * 24 * 3600 * 1000) } random c ∧ CertAdded s s' k c
    | .error _ => s'.store = s.store ∧ ¬ SelfSignable k now := by
  obtain ⟨key, hk, hf, hv, hid⟩ := hs.stored hl
  obtain ⟨p, hp, hpb⟩ := hs.tpm k _ hf.bits
  unfold selfSign
  unfold After
  rw [keyImpl_some hk, hf.name]
  cases hver : Component.fromVersion now with
  | error e =>
    refine ⟨hs, Ext.refl s, rfl, rfl, ?_⟩
    rintro ⟨_, ⟨v, hv⟩, _⟩
    rw [hver] at hv
    nomatch hv
  | ok v =>
    rw [lift_bind_ok rfl]
    have hsd := signData_spec S hs { name := k ++ [Component.generic "self".toUTF8.toList, v], metaInfo := { type := 2, freshnessPeriod := some 3600000 }, content := some key.bits }
      { signer := .key k (some r), validity := setPeriod now (now + 20 * 365 * 24 * 3600 * 1000) } random ⟨k, hl⟩
    obtain ⟨g1, g2, g3⟩ := hsd
    rw [bind_run]
    cases eq : signData P { name := k ++ [Component.generic "self".toUTF8.toList, v], metaInfo := { type := 2, freshnessPeriod := some 3600000 }, content := some key.bits }
      { signer := .key k (some r), validity := setPeriod now (now + 20 * 365 * 24 * 3600 * 1000) } random s with
    | mk x s1 =>
      rw [eq] at g1 g2 g3
      dsimp only at g1 g2
      cases x with
      | error e =>
        refine ⟨g1, g2.ext, g2.tpm, g2.store, ?_⟩
        rintro ⟨q1, _, q3⟩
        rcases g3 with g3 | g3 | ⟨k', si, g3, g4⟩
        · nomatch g3
        · exact g3 trivial
        · rcases g3 with ⟨g3, _⟩ | ⟨p', c1, c2, c3, c4⟩
          · exact g3
          · have hkk : k' = k := by
              obtain ⟨key2, w1, w2⟩ := hs.live (show LiveKey s k' r from c1)
              rw [hk] at w1
              cases w1
              exact w2.name.symm.trans hf.name
            subst hkk
            apply g4
            refine ⟨?_, ?_, ?_⟩
            · intro c hc
              rcases List.mem_append.1 hc with hc | hc
              · exact q1 c hc
              · rcases List.mem_cons.1 hc with rfl | hc
                · trivial
                · rw [List.mem_singleton.1 hc]; exact fromVersion_canonical hver
            · exact ⟨Or.inl (show 2 ≤ 3 by decide), fun f hf => by cases hf; decide, trivial, fun _ => rfl⟩
            · rcases c4 with ⟨_, rfl⟩ | ⟨_, rfl⟩
              · exact ⟨Or.inr (Or.inl ⟨rfl, q1⟩), q3⟩
              · exact ⟨Or.inr (Or.inl ⟨rfl, q1⟩), q3⟩
      | ok c =>
        dsimp only at g3 ⊢
        have hcn : c.name = selfCertName k v := by rw [g3.same]; rfl
        have hcc : c.content = some key.bits := by rw [g3.same]
        have hcm : c.metaInfo = { type := 2, freshnessPeriod := some 3600000 } := by rw [g3.same]
        have hl1 := g2.ext.key k r hl
        have hkc : keyOfCert c.name = k := by rw [hcn]; exact keyOfCert_append _ _ _
        have hca := certAdd_spec g1 hl1 (c := c) (fun _ => by rw [g2.store, hf.bits]; exact hcc) (fun hh d hd => by
          rw [hcn, g2.store, hst hh v hver] at hd
          nomatch hd)
        obtain ⟨f1, f2, f3, f4⟩ := hca
        have hck : checkCert c = .ok () := checkCert_ok (bits := key.bits) (isCertName_of_key hv hkc) (by rw [hcm]) (by rw [hcm]; exact fun h => nomatch h) hcc (by rw [← hpb]; exact S.nonempty p)
        cases eq2 : certAdd r c s1 with
        | mk y s2 =>
          rw [eq2] at f1 f2 f3 f4
          dsimp only at f1 f2 f3
          cases y with
          | error e => exact absurd ⟨hck, hkc⟩ f4.2
          | ok u =>
            dsimp only at f4
            obtain ⟨_, _, d1, d2, d3, d4, d5, d6⟩ := f4
            have e3 : (keyAddCertificate r c).exceptAny (raise .keyChain) s1 = (.ok u, s2) := by
              unfold M.exceptAny M.except keyAddCertificate
              rw [eq2]
            rw [bind_ok e3]
            rw [g2.store] at d1 d2 d3 d4 d5 d6
            exact ⟨f1, g2.ext.trans f2, f3.trans g2.tpm, v, _, rfl, hcn, hcc.trans hf.bits.symm, hcc, hck, hcm, g3, ⟨d1, d2, d3, d4, d5, d6⟩⟩

/-! ### New keys and identities -/

theorem tpmCreate_ok {n : Name} {g : Gen} (hc : Creatable P s n g) :
    ∃ id s', tpmCreate P n g s = (.ok (constructKeyName n id), s') ∧ Canonical id := by
  obtain ⟨_, h1, _, _, _, h2⟩ := hc
  unfold tpmCreate
  rw [if_neg h1, get_bind]
  dsimp only
  cases hid : g.id with
  | user c =>
    rw [hid] at h2
    dsimp only at h2 ⊢
    rw [check_true _ (by rw [h2.2]; rfl)]
    exact ⟨c, _, rfl, h2.1⟩
  | sha256 => exact ⟨_, _, rfl, trivial⟩
  | random ids =>
    rw [hid] at h2
    dsimp only at h2 ⊢
    obtain ⟨h3, c, h4, h5⟩ := h2
    cases hf : ids.find? (fun id => (dictGet (constructKeyName n id) s.tpm).isNone) with
    | none =>
      have := List.find?_eq_none.1 hf c h4
      rw [h5] at this
      exact absurd rfl this
    | some id =>
      rw [orRaise_some _ rfl]
      exact ⟨id, _, rfl, h3 id (List.mem_of_find?_eq_some hf)⟩

/-- How `createKey` changes the stored PIB and the TPM. -/
structure KeyCreated (P : Params) (s s' : KC) (n : Name) (g : Gen) (k : Name) : Prop where
  name : ∃ id, k = constructKeyName n id ∧ ∀ c, g.id = .user c → id = c
  new : dictGet k s.tpm = none ∧ dictGet k s.store.keys = none
  tpm : s'.tpm = dictSet k g.private_ s.tpm
  keys : ∀ k', dictGet k' s'.store.keys = if k' = k then some (P.publicKey g.private_) else dictGet k' s.store.keys
  identities : s'.store.identities = s.store.identities
  defaultIdentity : s'.store.defaultIdentity = some (s.store.defaultIdentity.getD n)
  defaultKey : dictGet n s'.store.defaultKeys = some ((dictGet n s.store.defaultKeys).getD k)
  cert : ∃ v d, Component.fromVersion g.now = .ok v ∧ dictGet k s'.store.defaultCerts = some (selfCertName k v) ∧ dictGet (selfCertName k v) s'.store.certs = some d ∧
    d.content = some (P.publicKey g.private_)

theorem createKey_spec (S : Sound P) (hs : Coh P strict s) {n : Name} {h : Nat} (hl : LiveId s n h) (g : Gen) (hg : FreshId P s n g) :
    After (createKey P h g) s fun x s' => Coh P strict s' ∧ Ext s s' ∧
    match x with
    | .ok r => ∃ k, LiveKey s' k r ∧ KeyCreated P s s' n g k
    | .error _ => ¬ Creatable P s n g := by
  obtain ⟨i, hi, hin, hmem⟩ := hs.id _ h hl
  unfold After createKey
  rw [idImpl_some hi, hin]
  rcases tpmCreate_spec hs n g hg with ⟨e, eq⟩ | ⟨id, s1, eq, c1, c2, c3, c4, c5, c6⟩
  · rw [bind_err eq]
    refine ⟨hs, Ext.refl s, fun hc => ?_⟩
    obtain ⟨id, s', e', _⟩ := tpmCreate_ok hc
    rw [eq] at e'
    nomatch e'
  · rw [bind_ok eq]
    have hcid : Creatable P s n g → Canonical id := fun hc => by
      obtain ⟨id', s', e', h'⟩ := tpmCreate_ok hc
      rw [eq] at e'
      have e2 : constructKeyName n id = constructKeyName n id' := by injection e' with e1 _; injection e1
      have e3 : id = id' := by
        unfold constructKeyName at e2
        have := List.append_cancel_left e2
        injection this with _ t
        injection t
      rw [e3]; exact h'
    generalize hk : constructKeyName n id = k at *
    have htp : dictGet k s1.tpm = some g.private_ := by rw [c5, get_set, if_pos rfl]
    obtain ⟨s2, e2, d1, d2⟩ := findKey_spec c1 k
    rw [htp] at e2
    rw [bind_ok e2]
    have hl2 := d2.ext.id _ _ (c2.id _ _ hl)
    have hidk : identityOfKey k = n := by rw [← hk]; exact identityOfKey_construct n id
    have hno := hs.unstored c4
    dsimp only [Option.map_some, Option.getD_some]
    by_cases hv : isValidKeyName k = true
    · obtain ⟨r, s3, e3, f1, f2, f3, f4, f5⟩ := keyAdd_spec S d1 hl2 hv hidk (by rw [d2.store, c3]; exact hno) (p := g.private_) (by rw [d2.tpm]; exact htp)
      rw [d2.store, c3] at f5
      rw [bind_ok e3]
      have hss := selfSign_spec S f1 f4 g.now g.random (fun _ v hver => by
        rw [f5]
        show dictGet (selfCertName k v) s.store.certs = none
        cases hd : dictGet (selfCertName k v) s.store.certs with
        | none => rfl
        | some d =>
          obtain ⟨_, ⟨b, hb⟩, _⟩ := hs.cons.cert _ _ hd
          rw [show keyOfCert (selfCertName k v) = k from keyOfCert_append _ _ _, hno] at hb
          nomatch hb)
      obtain ⟨q1, q2, q3, q4⟩ := hss
      rw [bind_run]
      cases eq4 : selfSign P r g.now g.random s3 with
      | mk x s4 =>
        rw [eq4] at q1 q2 q3 q4
        dsimp only at q1 q2 q3
        have hext : Ext s s4 := ((c2.trans d2.ext).trans f2).trans q2
        cases x with
        | error e =>
          refine ⟨q1, hext, fun hc => q4.2 ⟨?_, hc.2.2.2.1, hc.2.2.2.2.1⟩⟩
          rw [← hk]
          intro c hcm
          rcases List.mem_append.1 hcm with hcm | hcm
          · exact hc.2.2.1 c hcm
          · rcases List.mem_cons.1 hcm with rfl | hcm
            · trivial
            · rw [List.mem_singleton.1 hcm]; exact hcid hc
        | ok c =>
          dsimp only at q4
          show Coh P strict s4 ∧ Ext s s4 ∧ ∃ k, LiveKey s4 k r ∧ KeyCreated P s s4 n g k
          obtain ⟨v, d, w1, w2, w3, w4, _, _, w5, w6⟩ := q4
          have hb3 : dictGet k s3.store.keys = some (P.publicKey g.private_) := by
            rw [f5]
            show dictGet k (dictSet k _ s.store.keys) = _
            rw [get_set, if_pos rfl]
          have hdk : dictGet n s3.store.defaultKeys = some ((dictGet n s.store.defaultKeys).getD k) := by
            rw [f5]
            show dictGet n (if dictGet n s.store.defaultKeys = none then dictSet n k s.store.defaultKeys else s.store.defaultKeys) = _
            cases hdd : dictGet n s.store.defaultKeys with
            | none => rw [if_pos rfl, get_set, if_pos rfl]; rfl
            | some x => rw [if_neg (fun h => nomatch h), hdd]; rfl
          have hdc : dictGet k s3.store.defaultCerts = none := by
            rw [f5]
            show dictGet k s.store.defaultCerts = none
            cases hdd : dictGet k s.store.defaultCerts with
            | none => rfl
            | some x =>
              obtain ⟨⟨d', hd'⟩, hkc⟩ := hs.cons.defaultCert k x hdd
              obtain ⟨_, ⟨b, hb⟩, _⟩ := hs.cons.cert _ _ hd'
              rw [hkc, hno] at hb
              nomatch hb
          refine ⟨q1, hext, k, q2.key _ _ f4, ⟨⟨id, hk.symm, c6⟩, ⟨c4, hno⟩, ?_, ?_, ?_, ?_, w6.defaultKeys _ _ hdk, v, c, w1, ?_, ?_, ?_⟩⟩
          · rw [q3, f3, d2.tpm, c5]
          · intro k'
            rw [w6.keys, f5]
            show dictGet k' (dictSet k _ s.store.keys) = _
            rw [get_set]
          · rw [w6.identities, f5]
            show (if n ∈ s.store.identities then s.store.identities else _) = _
            rw [if_pos hmem]
          · apply w6.defaultIdentity
            rw [f5]
            show (if s.store.defaultIdentity = none then some n else s.store.defaultIdentity) = _
            cases s.store.defaultIdentity with
            | none => rfl
            | some x => rfl
          · rw [w6.defaultCerts, if_pos ⟨rfl, hdc⟩, w2]
          · rw [w6.certs, if_pos w2.symm]
          · rw [w3]; exact hb3
    · have e3 := keyAdd_invalid d1 hl2 (P := P) (fun hh => hv hh.1) (P.publicKey g.private_)
      rw [bind_err e3]
      refine ⟨d1, c2.trans d2.ext, fun hc => hv ?_⟩
      rw [← hk]
      exact (validKey_construct n id).2 hc.1

end KeyChain
end PyNDN
