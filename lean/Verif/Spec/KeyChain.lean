import Verif.Model.KeyChain
import Verif.Spec.Packet
/-
What the theorems about the key chain say.
-/
namespace PyNDN
namespace Spec.KeyChain
open PyNDN.KeyChain
open PyNDN.Spec
open PSync (dictGet)

/-- A PIB where everything belongs to something: each key to an identity and each certificate to a key; and the default
identity, the default key of an identity and the default certificate of a key exist, and are of that identity and key. -/
structure Consistent (s : Store) : Prop where
  defaultIdentity : ∀ n, s.defaultIdentity = some n → n ∈ s.identities
  key : ∀ k bits, dictGet k s.keys = some bits → isValidKeyName k = true ∧ identityOfKey k ∈ s.identities
  defaultKey : ∀ n k, dictGet n s.defaultKeys = some k → (∃ bits, dictGet k s.keys = some bits) ∧ identityOfKey k = n
  cert : ∀ c d, dictGet c s.certs = some d → isCertName c = true ∧ (∃ bits, dictGet (keyOfCert c) s.keys = some bits) ∧ d.name = c
  defaultCert : ∀ k c, dictGet k s.defaultCerts = some c → (∃ d, dictGet c s.certs = some d) ∧ keyOfCert c = k

/-- What is assumed of the cryptography: a generated key can be read and is an RSA or EC key, and its signatures are not empty
and verify. -/
structure Sound (P : Params) : Prop where
  type : ∀ p, P.keyType (P.publicKey p) = some .rsa ∨ P.keyType (P.publicKey p) = some .ec
  nonempty : ∀ p, P.publicKey p ≠ []
  signature : ∀ p random buffer, P.sign p random buffer ≠ []
  verify : ∀ p random buffer, P.verify buffer (some (P.sign p random buffer)) (P.publicKey p) = .ok true

/-- `h` is the object of the identity `n` that the KeyChain has now. -/
def LiveId (s : KC) (n : Name) (h : Nat) : Prop := dictGet n s.identities = some h

/-- `r` is the object of the key `k` that the KeyChain has now. -/
def LiveKey (s : KC) (k : Name) (r : Nat) : Prop := ∃ n h i, LiveId s n h ∧ s.ids[h]? = some i ∧ dictGet k i.keys = some r

/-- The default key of the identity `n`: with `strict`, the one that is stored; without, one of its keys. -/
def DefaultKeyIs (strict : Bool) (s : KC) (n k : Name) : Prop :=
  identityOfKey k = n ∧ (strict = true → dictGet n s.store.defaultKeys = some k)

/-- The key that a `SigningInfo` stands for. -/
def Chosen (strict : Bool) (s : KC) : Signer → Name → Prop
  | .null, k => ∃ n, s.store.defaultIdentity = some n ∧ DefaultKeyIs strict s n k
  | .id n none, k => DefaultKeyIs strict s n k
  | .id _ (some h), k => ∃ n, LiveId s n h ∧ DefaultKeyIs strict s n k
  | .key n none, k => k = n
  | .key _ (some r), k => LiveKey s k r
  | .cert c, k => k = keyOfCert c
  | .sha256, _ => False

/-- The signature is a digest: this was asked for, or nothing was asked for and there is no default identity. -/
def ByDigest (s : KC) : Signer → Prop
  | .sha256 => True
  | .null => s.store.defaultIdentity = none
  | _ => False

/-- The PIB has what the `SigningInfo` asks for. -/
def Ready (s : KC) : Signer → Prop
  | .null => ∀ n, s.store.defaultIdentity = some n → dictGet n s.store.defaultKeys ≠ none
  | .id n none => n ∈ s.store.identities ∧ dictGet n s.store.defaultKeys ≠ none
  | .id _ (some h) => ∀ n, LiveId s n h → dictGet n s.store.defaultKeys ≠ none
  | .key k none => dictGet k s.store.keys ≠ none
  | .key _ (some _) => True
  | .cert c => isCertName c = true ∧ dictGet (keyOfCert c) s.store.keys ≠ none
  | .sha256 => True

/-- The objects in a `SigningInfo` are those that the KeyChain has now. -/
def SignerLive (s : KC) : Signer → Prop
  | .id _ (some h) => ∃ n, LiveId s n h
  | .key _ (some r) => ∃ k, LiveKey s k r
  | _ => True

/-- The validity period in the signature. -/
def periodOf (info : SigningInfo) : ValidityPeriod := match info.validity with
  | some (notBefore, notAfter) => setPeriod notBefore notAfter
  | none => none

/-- The signature says which key it was made with, and is of the type of this key. -/
def SignedWith (P : Params) (info : SigningInfo) (k : Name) (bits : Bytes) (si : SigInfo) : Prop :=
  P.keyType bits = some .rsa ∧ si = .rsa { type := some 1, keyName := k } (periodOf info) ∨
  P.keyType bits = some .ec ∧ si = .ecdsa { type := some 1, keyName := k } (periodOf info)

/-- The same of a signature that was received. -/
def NamesKey (P : Params) (info : SigningInfo) (k : Name) (bits : Bytes) (si : SigInfo) : Prop :=
  ∃ locator, locator.type = some 1 ∧ locator.keyName = k ∧
    (P.keyType bits = some .rsa ∧ si = .rsa locator (periodOf info) ∨ P.keyType bits = some .ec ∧ si = .ecdsa locator (periodOf info))

/-- The name of the certificate that `selfSign` makes. -/
def selfCertName (k : Name) (v : Component) : Name := k ++ [Component.generic "self".toUTF8.toList, v]

/-- With the key id the SHA256 of the public key, the key does not exist yet. -/
def FreshId (P : Params) (s : KC) (n : Name) (g : Gen) : Prop :=
  g.id = .sha256 → dictGet (constructKeyName n (Component.generic (P.sha256 (P.publicKey g.private_)))) s.tpm = none

/-- The content that `importSafeBag` signs to check the private key. -/
def testContent : Bytes := [1, 2, 3, 4]

/-- A call that uses only identity and key objects that the KeyChain has now; that makes no key that exists already; and where
the private key that is imported is that of the certificate, if its signature on the test content verifies.  With `strict`, a
key is not deleted while another key is the default key of the identity, and no certificate is replaced by another one with the
same name. -/
def Proper (strict : Bool) (P : Params) (s : KC) : Op → Prop
  | .createIdentity n g => FreshId P s n g
  | .setDefaultIdentity h | .deleteIdentity h | .getKey h _ | .getDefaultKey h => ∃ n, LiveId s n h
  | .createKey h g => ∃ n, LiveId s n h ∧ FreshId P s n g
  | .setDefaultKey h r => (∃ n, LiveId s n h) ∧ ∃ k, LiveKey s k r
  | .deleteKey h r => (∃ n, LiveId s n h) ∧ ∃ k, LiveKey s k r ∧
      (strict = true → ∀ k', dictGet (identityOfKey k) s.store.defaultKeys = some k' → k' = k)
  | .addCertificate r c | .setDefaultCertificate r c => (∃ k, LiveKey s k r) ∧
      (strict = true → ∀ d, dictGet c.name s.store.certs = some d → d = c)
  | .getCertificate r _ | .getDefaultCertificate r | .deleteCertificate r _ => ∃ k, LiveKey s k r
  | .selfSign r now _ => ∃ k, LiveKey s k r ∧
      (strict = true → ∀ v, Component.fromVersion now = .ok v → dictGet (selfCertName k v) s.store.certs = none)
  | .sign _ info _ | .signInterest _ info _ _ => SignerLive s info.signer
  | .importSafeBag c bag password random => ∀ p, P.unwrap bag password = some p →
      P.verify testContent (some (P.sign p random testContent)) (c.content.getD []) = .ok true → c.content = some (P.publicKey p)
  | .getIdentity _ | .getDefaultIdentity | .deleteIdentityByName _ | .setTpmLocator _ | .restart => True

/-- A history of such calls. -/
def Disciplined (strict : Bool) (P : Params) (ops : List Op) : Prop :=
  ∀ a op b, ops = a ++ op :: b → Proper strict P (run P a) op

/-- What the `SigningInfo` asks for can be done: the PIB has the key, the digest algorithm is SHA256, and the signature can be encoded. -/
def CanSign (strict : Bool) (s : KC) (info : SigningInfo) : Prop :=
  Ready s info.signer ∧ info.sha256Algorithm = true ∧ ValidityOk (periodOf info) ∧ ∀ k, Chosen strict s info.signer k → CanonicalName k

/-- The validity period of a certificate that `selfSign` makes. -/
def selfPeriod (now : Int) : ValidityPeriod := match setPeriod now (now + 20 * 365 * 24 * 3600 * 1000) with
  | some (notBefore, notAfter) => setPeriod notBefore notAfter
  | none => none

/-- A key of the identity can be made: the name is not empty, the key id is not in use, and a certificate can be made. -/
def Creatable (P : Params) (s : KC) (n : Name) (g : Gen) : Prop :=
  n ≠ [] ∧ g.type ≠ .aes ∧ CanonicalName n ∧ (∃ v, Component.fromVersion g.now = .ok v) ∧ ValidityOk (selfPeriod g.now) ∧
  match g.id with
  | .user c => Canonical c ∧ dictGet (constructKeyName n c) s.tpm = none
  | .sha256 => True
  | .random ids => (∀ c ∈ ids, Canonical c) ∧ ∃ c ∈ ids, dictGet (constructKeyName n c) s.tpm = none

/-! ### Questions -/

/-- What an application asks, by name. -/
inductive Query where
  | identity (n : Name)
  | key (n k : Name)
  | cert (n k c : Name)
  | defaultIdentity
  | defaultKey (n : Name)
  | defaultCert (n k : Name)

/-- The answer: an identity by its name; a key by its name and its public key; a certificate. -/
inductive Answer where
  | identity (n : Name) | key (k : Name) (bits : Bytes) | cert (d : Data)
  deriving DecidableEq

/-- `getName()` of an identity; `getName()` and `getPublicKey()` of a key. -/
def identityAnswer (h : Nat) : K Answer := do return .identity (← idImpl h).name
def keyAnswer (r : Nat) : K Answer := do let key ← keyImpl r; return .key key.name key.bits

/-- The calls that an application makes: `getPib().getIdentity(n)`, and `getKey(k)` of it, and `getCertificate(c)` of that;
`getPib().getDefaultIdentity()`; `getIdentity(n).getDefaultKey()`; and `getIdentity(n).getKey(k).getDefaultCertificate()`. -/
def ask (P : Params) : Query → K Answer
  | .identity n => do identityAnswer (← getIdentity n)
  | .key n k => do keyAnswer (← keyGet P (← getIdentity n) k)
  | .cert n k c => do return .cert (← certGet (← keyGet P (← getIdentity n) k) c)
  | .defaultIdentity => do identityAnswer (← getDefaultIdentity)
  | .defaultKey n => do keyAnswer (← idGetDefaultKey P (← getIdentity n))
  | .defaultCert n k => do return .cert (← keyGetDefaultCertificate (← keyGet P (← getIdentity n) k))

/-- The answer in the stored PIB: the names must fit, and the thing must be there. -/
def keyIn (st : Store) (n k : Name) : Except KErr Bytes :=
  if n ∉ st.identities then .error .pib
  else if ¬ (isValidKeyName k = true ∧ identityOfKey k = n) then .error (.py .value)
  else match dictGet k st.keys with
    | none => .error .pib
    | some bits => .ok bits

def answer (st : Store) : Query → Except KErr Answer
  | .identity n => if n ∈ st.identities then .ok (.identity n) else .error .pib
  | .key n k => (keyIn st n k).map (.key k ·)
  | .cert n k c => do
    let _ ← keyIn st n k
    if ¬ (isCertName c = true ∧ keyOfCert c = k) then .error (.py .value)
    else match dictGet c st.certs with
      | none => .error .pib
      | some d => .ok (.cert d)
  | .defaultIdentity => match st.defaultIdentity with
    | none => .error .pib
    | some n => .ok (.identity n)
  | .defaultKey n =>
    if n ∉ st.identities then .error .pib
    else match dictGet n st.defaultKeys with
      | none => .error .pib
      | some k => (keyIn st n k).map (.key k ·)
  | .defaultCert n k => do
    let _ ← keyIn st n k
    match (dictGet k st.defaultCerts).bind (dictGet · st.certs) with
      | none => .error .pib
      | some d => .ok (.cert d)

/-- A question about a default key or a default certificate. -/
def Query.aboutDefault : Query → Prop
  | .defaultKey _ | .defaultCert _ _ => True
  | _ => False

/-- A question about the key `k`, its certificates, or the default key of its identity. -/
def Query.aboutKey (k : Name) : Query → Prop
  | .key _ k' | .cert _ k' _ | .defaultCert _ k' => k' = k
  | .defaultKey n => n = identityOfKey k
  | .identity _ | .defaultIdentity => False

/-- A question about the identity `n`, its keys and their certificates, or the default identity. -/
def Query.aboutIdentity (n : Name) : Query → Prop
  | .identity m | .key m _ | .cert m _ _ | .defaultKey m | .defaultCert m _ => m = n
  | .defaultIdentity => True

/-- A question about the certificate `c`, or the default certificate of its key. -/
def Query.aboutCert (c : Name) : Query → Prop
  | .cert _ _ c' => c' = c
  | .defaultCert _ k => k = keyOfCert c
  | _ => False

/-- What deleting an identity does: it is gone, with its keys and their certificates, and with the private keys whose key objects the
KeyChain has; there is no default identity if it was this one; and nothing else is changed. -/
structure IdentityDeleted (P : Params) (s s' : KC) (n : Name) : Prop where
  identity : (ask P (.identity n) s').1 = .error .pib
  keys : ∀ k, identityOfKey k = n → dictGet k s'.store.keys = none ∧ ∀ c, keyOfCert c = k → dictGet c s'.store.certs = none
  tpm : ∀ k r, identityOfKey k = n → LiveKey s k r → dictGet k s'.tpm = none
  default : s.store.defaultIdentity = some n → (ask P .defaultIdentity s').1 = .error .pib
  otherDefault : s.store.defaultIdentity ≠ some n → (ask P .defaultIdentity s').1 = (ask P .defaultIdentity s).1
  otherTpm : ∀ k, identityOfKey k ≠ n → dictGet k s'.tpm = dictGet k s.tpm
  other : ∀ q : Query, ¬ q.aboutIdentity n → (ask P q s').1 = (ask P q s).1

end Spec.KeyChain
end PyNDN
