import Verif.Model.Validator
import Verif.Model.PSync
/-
Model of the key chain: security/pib (pib.py, pib_memory.py, pib_identity_container.py, pib_key_container.py,
pib_certificate_container.py, pib_identity.py, pib_key.py, detail/pib_identity_impl.py, detail/pib_key_impl.py), security/tpm
(tpm.py, tpm_back_end.py, tpm_back_end_memory.py, tpm_key_handle_memory.py) and the security v2 part of security/key_chain.py,
with the PIB and the TPM in memory.

Simplifications.  Dictionaries and sets are lists; names are found by equality (C17).  Names, certificates and packets are
values: objects that are handed out are not changed by the caller.  The sets `_keyNames` and `_certificateNames` of the
containers, which only `size()` and `isConsistent()` read, are left out, and so is the logging, but for the log message that
raises.  Key generation, signing, verifying, and writing and reading private keys are parameters.
-/
namespace PyNDN.KeyChain
open PyNDN.PSync (dictGet dictSet dictDel)
open PyNDN.Validator (keyComponent)

/-! ### Methods that change an object and can raise -/

/-- The exceptions: `Pib.Error`, `Tpm.Error` and `TpmBackEnd.Error`, `KeyChain.Error`, `InvalidSigningInfoError` (a subclass of
`KeyChain.Error`) and those of Python; `CertificateV2.Error` is represented by `ValueError`. -/
inductive KErr where
  | pib | tpm | keyChain | signing | py (e : Err)
  deriving DecidableEq

/-- A method: it can change the state, and it returns or raises. -/
def M (σ α : Type) : Type := σ → Except KErr α × σ

section
variable {σ α β : Type}

def M.pure (a : α) : M σ α := fun s => (.ok a, s)
def M.bind (m : M σ α) (f : α → M σ β) : M σ β := fun s =>
  match m s with
  | (.ok a, s') => f a s'
  | (.error e, s') => (.error e, s')
instance : Monad (M σ) where
  pure := M.pure
  bind := M.bind
def raise (e : KErr) : M σ α := fun s => (.error e, s)
def get : M σ σ := fun s => (.ok s, s)
def modify (f : σ → σ) : M σ Unit := fun s => (.ok (), f s)
/-- `raise` unless the condition holds. -/
def check (c : Bool) (e : KErr) : M σ Unit := if c then pure () else raise e
/-- `try: m except e: h`. -/
def M.except (m : M σ α) (h : KErr → Option (M σ α)) : M σ α := fun s =>
  match m s with
  | (.ok a, s') => (.ok a, s')
  | (.error e, s') => match h e with
    | some m' => m' s'
    | none => (.error e, s')
/-- `except Pib.Error`. -/
def M.exceptPib (m h : M σ α) : M σ α := m.except fun e => if e = .pib then some h else none
/-- `except Exception`, always. -/
def M.exceptAny (m h : M σ α) : M σ α := m.except fun _ => some h
/-- `for x in list`. -/
def forEach (f : β → M σ Unit) : List β → M σ Unit
  | [] => pure ()
  | x :: xs => do f x; forEach f xs
/-- A result that can be an exception of Python. -/
def lift (r : Except Err α) : M σ α := match r with
  | .ok a => pure a
  | .error e => raise (.py e)
/-- A dictionary entry, or an exception. -/
def orRaise (r : Option α) (e : KErr) : M σ α := match r with
  | some a => pure a
  | none => raise e
end

/-! ### Names -/

/-- `PibKey.isValidKeyName` (pib_key.py:122-133). -/
def isValidKeyName (n : Name) : Bool := n.length > 2 && n[n.length - 2]?.any (·.equals keyComponent)

/-- `PibKey.extractIdentityFromKeyName` (pib_key.py:135-149) of a valid name; `getPrefix(-2)` is this by C16_prefix. -/
def identityOfKey (n : Name) : Name := n.take (n.length - 2)

/-- `PibKey.constructKeyName` (pib_key.py:107-120). -/
def constructKeyName (identity : Name) (keyId : Component) : Name := identity ++ [keyComponent, keyId]

/-- `CertificateV2.isValidName` (certificate_v2.py:265-277). -/
def isCertName (n : Name) : Bool := n.length ≥ 4 && n[n.length - 4]?.any (·.equals keyComponent)

/-- `CertificateV2.getKeyName` and `extractKeyNameFromCertName` (certificate_v2.py:122-129, 295-310) of a valid name. -/
def keyOfCert (n : Name) : Name := n.take (n.length - 2)

/-- `CertificateV2.getIdentity` (certificate_v2.py:131-138). -/
def identityOfCert (n : Name) : Name := n.take (n.length - 4)

/-- `CertificateV2._checkFormat` (certificate_v2.py:107-120), when a certificate is copied. -/
def checkCert (c : Data) : Except Err Unit := Validator.checkFormat { data := c }

/-! ### PibMemory -/

/-- `PibMemory` (pib_memory.py:38-58). -/
structure Store where
  tpmLocator : Bytes := []
  defaultIdentity : Option Name := none
  identities : List Name := []
  /-- identity name => default key name -/
  defaultKeys : List (Name × Name) := []
  keys : List (Name × Bytes) := []
  /-- key name => default certificate name -/
  defaultCerts : List (Name × Name) := []
  certs : List (Name × Data) := []
  deriving DecidableEq

namespace Store

/-- `addIdentity` (pib_memory.py:96-108). -/
def addIdentity (n : Name) : M Store Unit := modify fun s =>
  { s with
    identities := if n ∈ s.identities then s.identities else s.identities ++ [n]
    defaultIdentity := if s.defaultIdentity = none then some n else s.defaultIdentity }

/-- `getKeysOfIdentity` (pib_memory.py:256-273). -/
def keysOfLoop (n : Name) : List Name → M Store (List Name)
  | [] => pure []
  | k :: ks => do
    check (isValidKeyName k) (.py .value)
    let rest ← keysOfLoop n ks
    return if n.equals (identityOfKey k) then k :: rest else rest

def getKeysOfIdentity (n : Name) : M Store (List Name) := do
  let s ← get
  keysOfLoop n (s.keys.map (·.1))

/-- `getCertificatesOfKey` (pib_memory.py:383-402). -/
def certsOfLoop (k : Name) : List Name → M Store (List Name)
  | [] => pure []
  | c :: cs => do
    check (isCertName c) (.py .value)
    let rest ← certsOfLoop k cs
    return if (keyOfCert c).equals k then c :: rest else rest

def getCertificatesOfKey (k : Name) : M Store (List Name) := do
  let s ← get
  certsOfLoop k (s.certs.map (·.1))

/-- `removeCertificate` (pib_memory.py:345-366). -/
def removeCertificate (c : Name) : M Store Unit := do
  modify fun s => { s with certs := dictDel c s.certs }
  check (isCertName c) (.py .value)
  modify fun s =>
    if dictGet (keyOfCert c) s.defaultCerts = some c then { s with defaultCerts := dictDel (keyOfCert c) s.defaultCerts } else s

/-- `removeKey` (pib_memory.py:218-239): the default key of the identity is forgotten, whether or not it is this key. -/
def removeKey (k : Name) : M Store Unit := do
  check (isValidKeyName k) (.py .value)
  modify fun s => { s with keys := dictDel k s.keys, defaultKeys := dictDel (identityOfKey k) s.defaultKeys }
  let cs ← getCertificatesOfKey k
  forEach removeCertificate cs

/-- `removeIdentity` (pib_memory.py:110-128). -/
def removeIdentity (n : Name) : M Store Unit := do
  modify fun s =>
    { s with
      identities := s.identities.filter (· ≠ n)
      defaultIdentity := if s.defaultIdentity = some n then none else s.defaultIdentity }
  let ks ← getKeysOfIdentity n
  forEach removeKey ks

/-- `clearIdentities` (pib_memory.py:130-139). -/
def clearIdentities : M Store Unit := modify fun s => { tpmLocator := s.tpmLocator }

/-- `setDefaultIdentity` (pib_memory.py:156-166). -/
def setDefaultIdentity (n : Name) : M Store Unit := do
  addIdentity n
  modify fun s => { s with defaultIdentity := some n }

/-- `getDefaultIdentity` (pib_memory.py:168-180). -/
def getDefaultIdentity : M Store Name := do orRaise (← get).defaultIdentity .pib

/-- `addKey` (pib_memory.py:195-216). -/
def addKey (n k : Name) (bits : Bytes) : M Store Unit := do
  addIdentity n
  modify fun s =>
    { s with
      keys := dictSet k bits s.keys
      defaultKeys := if dictGet n s.defaultKeys = none then dictSet n k s.defaultKeys else s.defaultKeys }

/-- `getKeyBits` (pib_memory.py:241-254). -/
def getKeyBits (k : Name) : M Store Bytes := do orRaise (dictGet k (← get).keys) .pib

/-- `setDefaultKeyOfIdentity` (pib_memory.py:275-288). -/
def setDefaultKeyOfIdentity (n k : Name) : M Store Unit := do
  check (dictGet k (← get).keys).isSome .pib
  modify fun s => { s with defaultKeys := dictSet n k s.defaultKeys }

/-- `getDefaultKeyOfIdentity` (pib_memory.py:290-307). -/
def getDefaultKeyOfIdentity (n : Name) : M Store Name := do orRaise (dictGet n (← get).defaultKeys) .pib

/-- `addCertificate` (pib_memory.py:321-343).  The name has the form of a certificate name, as all callers check; a null
content is added as an empty key, and then copying the certificate raises. -/
def addCertificate (c : Data) : M Store Unit := do
  addKey (identityOfCert c.name) (keyOfCert c.name) (c.content.getD [])
  lift (checkCert c)
  modify fun s =>
    { s with
      certs := dictSet c.name c s.certs
      defaultCerts := if dictGet (keyOfCert c.name) s.defaultCerts = none then dictSet (keyOfCert c.name) c.name s.defaultCerts else s.defaultCerts }

/-- `getCertificate` (pib_memory.py:368-381). -/
def getCertificate (c : Name) : M Store Data := do orRaise (dictGet c (← get).certs) .pib

/-- `setDefaultCertificateOfKey` (pib_memory.py:404-420). -/
def setDefaultCertificateOfKey (k c : Name) : M Store Unit := do
  check (dictGet c (← get).certs).isSome .pib
  modify fun s => { s with defaultCerts := dictSet k c s.defaultCerts }

/-- `getDefaultCertificateOfKey` (pib_memory.py:422-438). -/
def getDefaultCertificateOfKey (k : Name) : M Store Data := do
  let c ← orRaise (dictGet k (← get).defaultCerts) .pib
  orRaise (dictGet c (← get).certs) (.py .key)

end Store

/-! ### The state of a KeyChain -/

/-- `PibKeyImpl` (detail/pib_key_impl.py:54-98) with its `PibCertificateContainer` (pib_certificate_container.py:38-48).  The key
type follows from the bits. -/
structure KeyImpl where
  name : Name
  bits : Bytes
  certs : List (Name × Data) := []
  defaultCert : Option Data := none
  deriving DecidableEq

/-- `PibIdentityImpl` (detail/pib_identity_impl.py:45-61) with its `PibKeyContainer` (pib_key_container.py:39-50); a `PibKeyImpl`
is given by its place in the heap. -/
structure IdImpl where
  name : Name
  keys : List (Name × Nat) := []
  defaultKey : Option Nat := none
  deriving DecidableEq

/-- A KeyChain: the stored PIB; the `Pib` with its `PibIdentityContainer` (pib.py:49-57, pib_identity_container.py:38-47); all
`PibIdentityImpl` and `PibKeyImpl` objects that were made (a `PibIdentity` or `PibKey` refers to one); the private keys of the
`TpmBackEndMemory` (tpm_back_end_memory.py:32-36) and the handles of the `Tpm` (tpm.py:45-59). -/
structure KC where
  store : Store := {}
  identityNames : List Name := []
  identities : List (Name × Nat) := []
  defaultIdentity : Option Nat := none
  ids : List IdImpl := []
  keys : List KeyImpl := []
  tpm : List (Name × Nat) := []
  handles : List (Name × Nat) := []
  deriving DecidableEq

inductive KeyType where
  | rsa | ec | aes
  deriving DecidableEq

/-- What is not modelled: the hash; the public key of a private key; `PublicKey(bits).getKeyType()`, none if the bits are not a
key; `TpmPrivateKey.sign`, with what the random generator gives; `VerificationHelpers.verifySignature`; `toPkcs8` and
`toEncryptedPkcs8`, `loadPkcs8` and `loadEncryptedPkcs8` of a private key, with the password. -/
structure Params where
  sha256 : Bytes → Bytes
  publicKey : Nat → Bytes
  keyType : Bytes → Option KeyType
  sign : Nat → Nat → Bytes → Bytes
  verify : Bytes → Option Bytes → Bytes → Except Err Bool
  wrap : Nat → Option Bytes → Bytes
  unwrap : Bytes → Option Bytes → Option Nat

abbrev K (α : Type) := M KC α

/-- A call of the stored PIB. -/
def onStore (m : M Store α) : K α := fun s => match m s.store with
  | (r, st) => (r, { s with store := st })

/-- The object with the number `h`, or nothing there: never, for a number that was handed out. -/
def idImpl (h : Nat) : K IdImpl := do orRaise (← get).ids[h]? (.py .attribute)
def keyImpl (k : Nat) : K KeyImpl := do orRaise (← get).keys[k]? (.py .attribute)
def setId (h : Nat) (f : IdImpl → IdImpl) : K Unit := modify fun s => { s with ids := s.ids.modify h f }
def setKey (k : Nat) (f : KeyImpl → KeyImpl) : K Unit := modify fun s => { s with keys := s.keys.modify k f }
def newId (i : IdImpl) : K Nat := fun s => (.ok s.ids.length, { s with ids := s.ids ++ [i] })
def newKey (k : KeyImpl) : K Nat := fun s => (.ok s.keys.length, { s with keys := s.keys ++ [k] })

/-! ### Certificates of a key -/

/-- `PibCertificateContainer.add` (pib_certificate_container.py:59-77). -/
def certAdd (k : Nat) (c : Data) : K Unit := do
  let key ← keyImpl k
  check (key.name.equals (keyOfCert c.name)) (.py .value)
  lift (checkCert c)
  setKey k fun key => { key with certs := dictSet c.name c key.certs }
  onStore (Store.addCertificate c)

/-- `PibCertificateContainer.remove` (pib_certificate_container.py:79-105). -/
def certRemove (k : Nat) (c : Name) : K Unit := do
  let key ← keyImpl k
  check (isCertName c && (keyOfCert c).equals key.name) (.py .value)
  setKey k fun key => { key with certs := dictDel c key.certs }
  onStore (Store.removeCertificate c)

/-- `PibCertificateContainer.get` (pib_certificate_container.py:107-139). -/
def certGet (k : Nat) (c : Name) : K Data := do
  let key ← keyImpl k
  match dictGet c key.certs with
  | some d => return d
  | none =>
    check (isCertName c && (keyOfCert c).equals key.name) (.py .value)
    let d ← onStore (Store.getCertificate c)
    setKey k fun key => { key with certs := dictSet c d key.certs }
    return d

/-- `PibKeyImpl.addCertificate` (detail/pib_key_impl.py:138-151). -/
def keyAddCertificate (k : Nat) (c : Data) : K Unit := certAdd k c

/-- `PibKeyImpl.removeCertificate` (detail/pib_key_impl.py:153-167). -/
def keyRemoveCertificate (k : Nat) (c : Name) : K Unit := do
  setKey k fun key =>
    match key.defaultCert with
    | some d => if d.name.equals c then { key with defaultCert := none } else key
    | none => key
  certRemove k c

/-- `PibKeyImpl.setDefaultCertificate` (detail/pib_key_impl.py:182-208) with a name. -/
def keySetDefaultCertificate (k : Nat) (c : Name) : K Data := do
  let key ← keyImpl k
  let d ← certGet k c
  setKey k fun key => { key with defaultCert := some d }
  onStore (Store.setDefaultCertificateOfKey key.name c)
  return d

/-- `PibKeyImpl.getDefaultCertificate` (detail/pib_key_impl.py:210-226). -/
def keyGetDefaultCertificate (k : Nat) : K Data := do
  let key ← keyImpl k
  match key.defaultCert with
  | some d => return d
  | none =>
    let d ← onStore (Store.getDefaultCertificateOfKey key.name)
    setKey k fun key => { key with defaultCert := some d }
    return d

/-! ### Keys of an identity -/

/-- The constructor `PibKeyImpl(keyName, pibImpl)` (detail/pib_key_impl.py:57-77). -/
def loadKey (P : Params) (k : Name) : K Nat := do
  check (isValidKeyName k) (.py .value)
  let _ ← onStore (Store.getCertificatesOfKey k)
  let bits ← onStore (Store.getKeyBits k)
  check (P.keyType bits).isSome .pib
  newKey { name := k, bits := bits }

/-- The constructor `PibKeyImpl(keyName, keyEncoding, pibImpl)` (detail/pib_key_impl.py:78-98). -/
def makeKey (P : Params) (k : Name) (bits : Bytes) : K Nat := do
  check (isValidKeyName k) (.py .value)
  let _ ← onStore (Store.getCertificatesOfKey k)
  check (P.keyType bits).isSome (.py .value)
  onStore (Store.addKey (identityOfKey k) k bits)
  newKey { name := k, bits := bits }

/-- `PibKeyContainer.get` (pib_key_container.py:111-135). -/
def keyGet (P : Params) (h : Nat) (k : Name) : K Nat := do
  let i ← idImpl h
  check (isValidKeyName k && i.name.equals (identityOfKey k)) (.py .value)
  match dictGet k i.keys with
  | some r => return r
  | none =>
    let r ← loadKey P k
    setId h fun i => { i with keys := dictSet k r i.keys }
    return r

/-- `PibKeyContainer.add` (pib_key_container.py:61-83). -/
def keyAdd (P : Params) (h : Nat) (bits : Bytes) (k : Name) : K Nat := do
  let i ← idImpl h
  check (isValidKeyName k && i.name.equals (identityOfKey k)) (.py .value)
  let r ← makeKey P k bits
  setId h fun i => { i with keys := dictSet k r i.keys }
  keyGet P h k

/-- `PibKeyContainer.remove` (pib_key_container.py:85-109). -/
def keyRemove (h : Nat) (k : Name) : K Unit := do
  let i ← idImpl h
  check (isValidKeyName k && i.name.equals (identityOfKey k)) (.py .value)
  setId h fun i => { i with keys := dictDel k i.keys }
  onStore (Store.removeKey k)

/-- `PibIdentityImpl.removeKey` (detail/pib_identity_impl.py:89-102). -/
def idRemoveKey (h : Nat) (k : Name) : K Unit := do
  let i ← idImpl h
  match i.defaultKey with
  | some r =>
    let key ← keyImpl r
    if key.name.equals k then setId h fun i => { i with defaultKey := none }
  | none => pure ()
  keyRemove h k

/-- `PibIdentityImpl.setDefaultKey` (detail/pib_identity_impl.py:118-151) with a name. -/
def idSetDefaultKey (P : Params) (h : Nat) (k : Name) : K Nat := do
  let i ← idImpl h
  let r ← keyGet P h k
  setId h fun i => { i with defaultKey := some r }
  onStore (Store.setDefaultKeyOfIdentity i.name k)
  return r

/-- `PibIdentityImpl.getDefaultKey` (detail/pib_identity_impl.py:153-169). -/
def idGetDefaultKey (P : Params) (h : Nat) : K Nat := do
  let i ← idImpl h
  match i.defaultKey with
  | some r => return r
  | none =>
    let k ← onStore (Store.getDefaultKeyOfIdentity i.name)
    let r ← keyGet P h k
    setId h fun i => { i with defaultKey := some r }
    return r

/-! ### Pib -/

/-- The constructor of `PibIdentityImpl` (detail/pib_identity_impl.py:45-61). -/
def loadId (n : Name) (needInit : Bool) : K Nat := do
  let _ ← onStore (Store.getKeysOfIdentity n)
  if needInit then onStore (Store.addIdentity n)
  else check (decide (n ∈ (← get).store.identities)) .pib
  newId { name := n }

/-- `PibIdentityContainer.get` and `Pib.getIdentity` (pib_identity_container.py:98-117, pib.py:114-125). -/
def getIdentity (n : Name) : K Nat := do
  match dictGet n (← get).identities with
  | some h => return h
  | none =>
    let h ← loadId n false
    modify fun s => { s with identities := dictSet n h s.identities }
    return h

/-- `PibIdentityContainer.add` and `Pib._addIdentity` (pib_identity_container.py:58-73, pib.py:155-166). -/
def addIdentity (n : Name) : K Nat := do
  if n ∈ (← get).identityNames then getIdentity n
  else do
    modify fun s => { s with identityNames := s.identityNames ++ [n] }
    let h ← loadId n true
    modify fun s => { s with identities := dictSet n h s.identities }
    getIdentity n

/-- `Pib._removeIdentity` and `PibIdentityContainer.remove` (pib.py:168-183, pib_identity_container.py:75-96). -/
def removeIdentity (n : Name) : K Unit := do
  match (← get).defaultIdentity with
  | some h =>
    let i ← idImpl h
    if i.name.equals n then modify fun s => { s with defaultIdentity := none }
  | none => pure ()
  modify fun s => { s with identityNames := s.identityNames.filter (· ≠ n), identities := dictDel n s.identities }
  onStore (Store.removeIdentity n)

/-- `Pib.getDefaultIdentity` (pib.py:127-143). -/
def getDefaultIdentity : K Nat := do
  match (← get).defaultIdentity with
  | some h => return h
  | none =>
    let n ← onStore Store.getDefaultIdentity
    let h ← getIdentity n
    modify fun s => { s with defaultIdentity := some h }
    return h

/-- `Pib._setDefaultIdentity` (pib.py:185-200). -/
def pibSetDefaultIdentity (n : Name) : K Unit := do
  let h ← addIdentity n
  modify fun s => { s with defaultIdentity := some h }
  onStore (Store.setDefaultIdentity n)

/-- `Pib.setTpmLocator` (pib.py:86-98): the method `_reset` is named but not called. -/
def setTpmLocator (l : Bytes) : K Unit := modify fun s => { s with store := { s.store with tpmLocator := l } }

/-! ### Tpm -/

/-- `Tpm._findKey` (tpm.py:262-287). -/
def findKey (k : Name) : K (Option Nat) := do
  match dictGet k (← get).handles with
  | some p => return some p
  | none => match dictGet k (← get).tpm with
    | some p =>
      modify fun s => { s with handles := dictSet k p s.handles }
      return some p
    | none => return none

/-- `Tpm._deleteKey` (tpm.py:208-223, tpm_back_end_memory.py:93-105). -/
def tpmDelete (k : Name) : K Unit := modify fun s => { s with handles := dictDel k s.handles, tpm := dictDel k s.tpm }

/-- `KeyParams.getKeyIdType` (key_params.py): with `random`, what the random generator gives, one component after the other. -/
inductive KeyId where
  | user (id : Component) | sha256 | random (ids : List Component)
  deriving DecidableEq

/-- What making a key depends on: the key type and the type of the key id, the private key that is generated, the clock and the
random generator when the certificate is made. -/
structure Gen where
  type : KeyType := .rsa
  id : KeyId
  private_ : Nat
  now : Int := 0
  random : Nat := 0
  deriving DecidableEq

/-- `Tpm._createKey` (tpm.py:186-206, tpm_back_end.py:74-110, 206-231, tpm_back_end_memory.py:68-91).  If each of the random
components is in use the loop goes on; the model raises then. -/
def tpmCreate (P : Params) (n : Name) (g : Gen) : K Name := do
  if g.type = .aes then raise .tpm
  else
    let tpm := (← get).tpm
    let unused (k : Name) : Bool := (dictGet k tpm).isNone
    let keyId ← match g.id with
      | .user id => do
        check (unused (constructKeyName n id)) .tpm
        pure id
      | .sha256 => pure (Component.generic (P.sha256 (P.publicKey g.private_)))
      | .random ids => orRaise (ids.find? fun id => unused (constructKeyName n id)) .tpm
    let k := constructKeyName n keyId
    modify fun s => { s with tpm := dictSet k g.private_ s.tpm, handles := dictSet k g.private_ s.handles }
    return k

/-- `Tpm.sign` (tpm.py:99-118, tpm_key_handle_memory.py:46-64): null if there is no key.  The digest algorithm is SHA256. -/
def tpmSign (P : Params) (random : Nat) (buffer : Bytes) (k : Name) : K (Option Bytes) := do
  match ← findKey k with
  | some p => return some (P.sign p random buffer)
  | none => return none

/-! ### Signing -/

/-- Who signs, in a `SigningInfo` (signing_info.py:75-133); `id` and `key` with the object if one was given. -/
inductive Signer where
  | null
  | id (name : Name) (object : Option Nat)
  | key (name : Name) (object : Option Nat)
  | cert (name : Name)
  | sha256
  deriving DecidableEq

/-- `SigningInfo`.  `sha256Algorithm` tells whether the digest algorithm is SHA256, the default. -/
structure SigningInfo where
  signer : Signer := .null
  sha256Algorithm : Bool := true
  validity : ValidityPeriod := none
  deriving DecidableEq

/-- `SigningInfo.getDigestSha256Identity` (signing_info.py:349-358): /localhost/identity/digest-sha256. -/
def digestIdentity : Name :=
  [Component.generic "localhost".toUTF8.toList, Component.generic "identity".toUTF8.toList, Component.generic "digest-sha256".toUTF8.toList]

/-- The end of `_prepareSignatureInfo` (key_chain.py:1705-1726). -/
def signatureInfoOf (P : Params) (info : SigningInfo) (k : Nat) : K (Name × SigInfo) := do
  let key ← keyImpl k
  let period : ValidityPeriod := match info.validity with
    | some (notBefore, notAfter) => setPeriod notBefore notAfter
    | none => none
  let locator : KeyLocator := { type := some 1, keyName := key.name }
  match P.keyType key.bits, info.sha256Algorithm with
  | some .rsa, true => return (key.name, .rsa locator period)
  | some .ec, true => return (key.name, .ecdsa locator period)
  | _, _ => raise .keyChain

/-- `_prepareSignatureInfo` (key_chain.py:1629-1726): the key name and the new signature object. -/
def prepareSignatureInfo (P : Params) (info : SigningInfo) : K (Name × SigInfo) :=
  let byDefaultKey (h : Nat) : K (Name × SigInfo) := do
    let k ← (idGetDefaultKey P h).exceptPib (raise .signing)
    signatureInfoOf P info k
  match info.signer with
  | .null => do
    let h ← (do return some (← getDefaultIdentity)).exceptPib (pure none)
    match h with
    | some h => byDefaultKey h
    | none => return (digestIdentity, .digest)
  | .id _ (some h) => byDefaultKey h
  | .id n none => do
    let h ← (getIdentity n).exceptPib (raise .signing)
    byDefaultKey h
  | .key _ (some k) => signatureInfoOf P info k
  | .key n none => do
    check (isValidKeyName n) (.py .value)
    let k ← (do keyGet P (← getIdentity (identityOfKey n)) n).exceptPib (raise .signing)
    signatureInfoOf P info k
  | .cert n => do
    check (isCertName n) (.py .value)
    let k ← (do keyGet P (← getIdentity (identityOfCert n)) (keyOfCert n)).exceptPib (raise .signing)
    signatureInfoOf P info k
  | .sha256 => return (digestIdentity, .digest)

/-- `_signBuffer` (key_chain.py:1728-1746). -/
def signBuffer (P : Params) (random : Nat) (buffer : Bytes) (k : Name) : K (Option Bytes) :=
  if k.equals digestIdentity then return some (P.sha256 buffer) else tpmSign P random buffer k

/-- `SignedBlob.toSignedBytes` (util/signed_blob.py). -/
def signedPortion (wire : Bytes) (b e : Nat) : Bytes := (wire.take e).drop b

/-- `sign(data, params)` (key_chain.py:524-540): the Data object afterwards. -/
def signData (P : Params) (d : Data) (info : SigningInfo) (random : Nat) : K Data := do
  let (k, si) ← prepareSignatureInfo P info
  let d := { d with signature := { info := si } }
  let (wire, b, e) ← lift (encodeData d)
  let signature ← signBuffer P random (signedPortion wire b e) k
  let d := { d with signature := { info := si, signature := signature } }
  let _ ← lift (encodeData d)
  return d

/-- `sign(interest, params)` (key_chain.py:541-560): the Interest object afterwards.  Its nonce is cleared, since its name was
changed (C24). -/
def signInterest (P : Params) (i : Interest) (info : SigningInfo) (random : Nat) (nonce : Nat → UInt8) : K Interest := do
  let (k, si) ← prepareSignatureInfo P info
  let encoded ← lift (encodeSignatureInfo si [])
  let name := i.name ++ [Component.generic encoded]
  let (wire, b, e) ← lift (encodeInterest { i with name := name ++ [Component.generic []], nonce := none } nonce)
  let signature ← signBuffer P random (signedPortion wire b e) k
  return { i with name := name ++ [Component.generic (writeBlobTlv 23 signature [])], nonce := none }

/-- `selfSign` (key_chain.py:570-618). -/
def selfSign (P : Params) (k : Nat) (now : Int) (random : Nat) : K Data := do
  let key ← keyImpl k
  let version ← lift (Component.fromVersion now)
  let c : Data :=
    { name := key.name ++ [Component.generic "self".toUTF8.toList, version]
      metaInfo := { type := 2, freshnessPeriod := some 3600000 }
      content := some key.bits }
  let c ← signData P c { signer := .key key.name (some k), validity := setPeriod now (now + 20 * 365 * 24 * 3600 * 1000) } random
  (keyAddCertificate k c).exceptAny (raise .keyChain)
  return c

/-! ### KeyChain -/

/-- `createKey` (key_chain.py:335-362). -/
def createKey (P : Params) (h : Nat) (g : Gen) : K Nat := do
  let i ← idImpl h
  let k ← tpmCreate P i.name g
  let p ← findKey k
  let r ← keyAdd P h ((p.map P.publicKey).getD []) k
  let _ ← selfSign P r g.now g.random
  return r

/-- `createIdentityV2` (key_chain.py:254-289): if the default key has no default certificate, the message for the log adds a
name to a string, which raises TypeError. -/
def createIdentity (P : Params) (n : Name) (g : Gen) : K Nat := do
  let h ← addIdentity n
  let k ← (idGetDefaultKey P h).exceptPib (createKey P h g)
  (do let _ ← keyGetDefaultCertificate k).exceptPib (raise (.py .type))
  return h

/-- `deleteIdentity` with an object (key_chain.py:316-323). -/
def deleteIdentity (h : Nat) : K Unit := do
  let i ← idImpl h
  forEach tpmDelete (i.keys.map (·.1))
  removeIdentity i.name

/-- `deleteIdentity` with a name (key_chain.py:304-311). -/
def deleteIdentityByName (n : Name) : K Unit := (do deleteIdentity (← getIdentity n)).exceptAny (pure ())

/-- `setDefaultIdentity` (key_chain.py:325-331). -/
def setDefaultIdentity (h : Nat) : K Unit := do pibSetDefaultIdentity (← idImpl h).name

/-- `deleteKey` (key_chain.py:364-378). -/
def deleteKey (h k : Nat) : K Unit := do
  let i ← idImpl h
  let key ← keyImpl k
  check (i.name.equals (identityOfKey key.name)) (.py .value)
  idRemoveKey h key.name
  tpmDelete key.name

/-- `setDefaultKey` (key_chain.py:380-392). -/
def setDefaultKey (P : Params) (h k : Nat) : K Unit := do
  let i ← idImpl h
  let key ← keyImpl k
  check (i.name.equals (identityOfKey key.name)) (.py .value)
  let _ ← idSetDefaultKey P h key.name

/-- `addCertificate` (key_chain.py:396-415). -/
def addCertificate (k : Nat) (c : Data) : K Unit := do
  let key ← keyImpl k
  check (key.name.equals (keyOfCert c.name) && c.content == some key.bits) (.py .value)
  keyAddCertificate k c

/-- `deleteCertificate` (key_chain.py:417-431). -/
def deleteCertificate (k : Nat) (c : Name) : K Unit := do
  check (isCertName c) (.py .value)
  keyRemoveCertificate k c

/-- `setDefaultCertificate` (key_chain.py:433-446). -/
def setDefaultCertificate (k : Nat) (c : Data) : K Unit := do
  addCertificate k c
  let _ ← keySetDefaultCertificate k c.name

/-- `exportSafeBag` (key_chain.py:622-649): the certificate and the encoded private key. -/
def exportSafeBag (P : Params) (c : Data) (password : Option Bytes) : K (Data × Bytes) := do
  let p ← orRaise (dictGet (keyOfCert c.name) (← get).tpm) .keyChain
  return (c, P.wrap p password)

/-- `importSafeBag` (key_chain.py:651-726). -/
def importSafeBag (P : Params) (c : Data) (bag : Bytes) (password : Option Bytes) (random : Nat) : K Unit := do
  lift (checkCert c)
  let n := identityOfCert c.name
  let k := keyOfCert c.name
  let bits := c.content.getD []
  check (dictGet k (← get).tpm).isNone .keyChain
  let found ← (do let _ ← keyGet P (← getIdentity n) k; return true).exceptPib (pure false)
  check (!found) .keyChain
  let p ← orRaise (P.unwrap bag password) .keyChain
  modify fun s => { s with tpm := dictSet k p s.tpm }
  let content : Bytes := [1, 2, 3, 4]
  let signature ← tpmSign P random content k
  let verified : Bool := (P.keyType bits).isSome && (match P.verify content signature bits with | .ok v => v | .error _ => false)
  if !verified then do
    tpmDelete k
    raise .keyChain
  else do
    let h ← addIdentity n
    let r ← keyAdd P h bits k
    keyAddCertificate r c

/-! ### Histories -/

/-- The calls of an application; `restart` is a new KeyChain with the same PIB and the same TPM. -/
inductive Op where
  | createIdentity (n : Name) (g : Gen)
  | getIdentity (n : Name)
  | getDefaultIdentity
  | setDefaultIdentity (h : Nat)
  | deleteIdentity (h : Nat)
  | deleteIdentityByName (n : Name)
  | createKey (h : Nat) (g : Gen)
  | getKey (h : Nat) (k : Name)
  | getDefaultKey (h : Nat)
  | setDefaultKey (h k : Nat)
  | deleteKey (h k : Nat)
  | addCertificate (k : Nat) (c : Data)
  | getCertificate (k : Nat) (c : Name)
  | getDefaultCertificate (k : Nat)
  | setDefaultCertificate (k : Nat) (c : Data)
  | deleteCertificate (k : Nat) (c : Name)
  | selfSign (k : Nat) (now : Int) (random : Nat)
  | sign (d : Data) (info : SigningInfo) (random : Nat)
  | signInterest (i : Interest) (info : SigningInfo) (random : Nat) (nonce : Nat → UInt8)
  | importSafeBag (c : Data) (bag : Bytes) (password : Option Bytes) (random : Nat)
  | setTpmLocator (l : Bytes)
  | restart

/-- What a call returns. -/
inductive Out where
  | none | identity (h : Nat) | key (k : Nat) | cert (c : Data) | data (d : Data) | interest (i : Interest)
  deriving DecidableEq

def K.out (m : K α) (f : α → Out) : K Out := do return f (← m)

/-- `KeyChain(pibImpl, tpmBackEnd)` (key_chain.py:189-200). -/
def restart : K Unit := modify fun s =>
  { s with identityNames := s.store.identities, identities := [], defaultIdentity := none, handles := [] }

def perform (P : Params) : Op → K Out
  | .createIdentity n g => K.out (createIdentity P n g) .identity
  | .getIdentity n => K.out (getIdentity n) .identity
  | .getDefaultIdentity => K.out getDefaultIdentity .identity
  | .setDefaultIdentity h => K.out (setDefaultIdentity h) fun _ => .none
  | .deleteIdentity h => K.out (deleteIdentity h) fun _ => .none
  | .deleteIdentityByName n => K.out (deleteIdentityByName n) fun _ => .none
  | .createKey h g => K.out (createKey P h g) .key
  | .getKey h k => K.out (keyGet P h k) .key
  | .getDefaultKey h => K.out (idGetDefaultKey P h) .key
  | .setDefaultKey h k => K.out (setDefaultKey P h k) fun _ => .none
  | .deleteKey h k => K.out (deleteKey h k) fun _ => .none
  | .addCertificate k c => K.out (addCertificate k c) fun _ => .none
  | .getCertificate k c => K.out (certGet k c) .cert
  | .getDefaultCertificate k => K.out (keyGetDefaultCertificate k) .cert
  | .setDefaultCertificate k c => K.out (setDefaultCertificate k c) fun _ => .none
  | .deleteCertificate k c => K.out (deleteCertificate k c) fun _ => .none
  | .selfSign k now r => K.out (selfSign P k now r) .cert
  | .sign d info r => K.out (signData P d info r) .data
  | .signInterest i info r nonce => K.out (signInterest P i info r nonce) .interest
  | .importSafeBag c bag pw r => K.out (importSafeBag P c bag pw r) fun _ => .none
  | .setTpmLocator l => K.out (setTpmLocator l) fun _ => .none
  | .restart => K.out restart fun _ => .none

/-- The state after a history, from an empty PIB and an empty TPM. -/
def run (P : Params) (ops : List Op) : KC := ops.foldl (fun s op => (perform P op s).2) {}

end PyNDN.KeyChain
