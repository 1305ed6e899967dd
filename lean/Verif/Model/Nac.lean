import Verif.Model.Encrypted
import Verif.Model.KeyChain
import Verif.Model.Storage
import Verif.Model.SegmentFetcher
/-
Model of name-based access control: `EncryptorV2` (encrypt/encryptor_v2.py), `DecryptorV2` (encrypt/decryptor_v2.py), the packets of
`AccessManagerV2` (encrypt/access_manager_v2.py) and the padding of `AesAlgorithm` (encrypt/algo/aes_algorithm.py).

A history is a list of calls by the application and by the face.  The face calls at most one of onData, onTimeout and onNetworkNack for an
Interest (C28), which is the guard of the actions; here it may call onData with any packet.  Whether `face.expressInterest` raises, what the
random generator gives and whether the onError callback of the application raises are choices of the environment.  `expressInterest` may
raise after it has put the Interest on the pending table (see Model/Node).
Simplifications: the callbacks of the application do not call into the object; names and packets are values: an EncryptedContent that was
given to `decrypt` is not changed by the caller.  The logging is left out.
-/
namespace PyNDN
namespace Nac
open Fetch (Express)
open Encrypt (EncryptedContent SafeBag)
open KeyChain (KC K M)
open PSync (dictGet dictSet)

/-- `EncryptError.ErrorCode` (encrypt_error.py:27-56): those that are used. -/
inductive Code where
  | kekRetrievalFailure | kekRetrievalTimeout | kekInvalidName
  | kdkRetrievalFailure | kdkRetrievalTimeout
  | ckRetrievalFailure | ckRetrievalTimeout | ckInvalidName
  | missingRequiredKeyLocator | tpmKeyNotFound | encryptionFailure | decryptionFailure
  | missingRequiredInitialVector | general | invalidEncryptedFormat
  deriving DecidableEq

/-- The components (encryptor_v2.py:303-307). -/
def encryptedBy : Component := .generic [0x45, 0x4e, 0x43, 0x52, 0x59, 0x50, 0x54, 0x45, 0x44, 0x2d, 0x42, 0x59]
def nac : Component := .generic [0x4e, 0x41, 0x43]
def kek : Component := .generic [0x4b, 0x45, 0x4b]
def kdk : Component := .generic [0x4b, 0x44, 0x4b]
def ck : Component := .generic [0x43, 0x4b]

/-! ### AES -/

/-- What is not modelled: AES in CBC mode of whole blocks, with the key and the initial vector; the decryption of bytes that are not
whole blocks raises. -/
structure Aes where
  encrypt : Bytes → Bytes → Bytes → Bytes
  decrypt : Bytes → Bytes → Bytes → Option Bytes

/-- The padding of `AesAlgorithm.encrypt` (aes_algorithm.py:120-125). -/
def pad (plain : Bytes) : Bytes :=
  let padLength := 16 - plain.length % 16
  plain ++ List.replicate padLength (UInt8.ofNat padLength)

/-- The end of `AesAlgorithm.decrypt` (aes_algorithm.py:97-105): `resultWithPad[-1]` raises if there is nothing, `[:-0]` is nothing. -/
def unpad (padded : Bytes) : Option Bytes :=
  match padded.getLast? with
  | none => none
  | some b => some (if b = 0 then [] else padded.take (padded.length - b.toNat))

/-- `AesAlgorithm.encrypt` with AesCbc (aes_algorithm.py:107-140). -/
def Aes.encryptCbc (A : Aes) (key iv plain : Bytes) : Bytes := A.encrypt key iv (pad plain)

/-- `AesAlgorithm.decrypt` with AesCbc (aes_algorithm.py:74-105); None means that it raises, as it does for a null payload. -/
def Aes.decryptCbc (A : Aes) (key iv : Bytes) (payload : Option Bytes) : Option Bytes :=
  match payload with
  | none => none
  | some p => (A.decrypt key iv p).bind unpad

/-! ### EncryptorV2 -/

/-- The choices of the environment in one step: how `expressInterest` ends, what the random generator gives and whether the onError of
the application raises. -/
structure Env where
  express : Express := .ok
  random : Nat := 0
  errorRaises : Bool := false

/-- What an EncryptorV2 is made with, and what is not modelled: `PublicKey(content).encrypt(bits, RsaOaep)`, None if it raises;
`keyChain.sign(data, signingInfo)`, None if it raises; `data.getFullName()`. -/
structure EncParams where
  accessPrefix : Name
  ckPrefix : Name
  aes : Aes
  rsaEncrypt : Option Bytes → Bytes → Nat → Option Bytes
  sign : Nat → Data → Option Data
  fullName : Data → Except Err Name

/-- What `callLater` will call: `_retryFetchingKek`, or `_fetchKekAndPublishCkData` with the tries that are left. -/
inductive Timer where
  | retry
  | fetch (nTriesLeft : Nat)
  deriving DecidableEq

inductive EEv where
  /-- A new CK. -/
  | ck (name : Name) (bits : Bytes)
  | express (id : Nat) (interest : Interest)
  /-- The face calls onData with a KEK. -/
  | kek (data : Data)
  /-- A CK packet is put in the storage. -/
  | published (data : Data)
  | callLater (delay : Nat)
  | error (code : Code)
  | putData (data : Data)
  deriving DecidableEq

/-- The state (encryptor_v2.py:74-91), with the Interests that the face has not called back for and the calls that it will make later. -/
structure Encryptor where
  ckName : Name := []
  ckBits : Bytes := []
  inProgress : Bool := false
  kekData : Option Data := none
  store : Storage.Cache := []
  pendingId : Nat := 0
  outstanding : List (Nat × Nat) := []
  timers : List Timer := []
  nextId : Nat := 1
  trace : List EEv := []

namespace Encryptor

def emit (s : Encryptor) (e : EEv) : Encryptor := { s with trace := s.trace ++ [e] }

/-- The `onError` of `_retryFetchingKek` (encryptor_v2.py:192-195). -/
def kekError (s : Encryptor) (code : Code) : Encryptor := { s with inProgress := false }.emit (.error code)

/-- The Interest for the KEK (encryptor_v2.py:257-259). -/
def kekInterest (P : EncParams) : Interest := { name := P.accessPrefix ++ [kek], mustBeFresh := true, maxSuffix := none }

/-- `_fetchKekAndPublishCkData` (encryptor_v2.py:199-263). -/
def fetchKek (P : EncParams) (s : Encryptor) (nTriesLeft : Nat) (env : Env) : Encryptor :=
  if s.pendingId > 0 then s.kekError .general
  else
    let id := s.nextId
    let s := { s with nextId := s.nextId + 1 }.emit (.express id (kekInterest P))
    match env.express with
    | .ok => { s with pendingId := id, outstanding := s.outstanding ++ [(id, nTriesLeft)] }
    | .raises tabled => { s with outstanding := s.outstanding ++ if tabled then [(id, nTriesLeft)] else [] }.kekError .general

/-- `_retryFetchingKek` (encryptor_v2.py:181-197). -/
def retryFetchingKek (P : EncParams) (s : Encryptor) (env : Env) : Encryptor :=
  if s.inProgress then s else fetchKek P { s with inProgress := true } 3 env

/-- The CK packet of `_makeAndPublishCkData` (encryptor_v2.py:278-292) with its full name; None if something raises. -/
def makeCkData (P : EncParams) (s : Encryptor) (kekData : Data) (random : Nat) : Option (Name × Data) :=
  match P.rsaEncrypt kekData.content s.ckBits random with
  | none => none
  | some payload =>
    let ckData : Data :=
      { name := s.ckName ++ [encryptedBy] ++ kekData.name
        content := some (Encrypt.encodeEncryptedContentV2 { payload := some payload })
        metaInfo := { freshnessPeriod := some 3600000 } }
    match P.sign random ckData with
    | none => none
    | some signed => match P.fullName signed with
      | .ok full => some (full, signed)
      | .error _ => none

/-- `self._storage.insert(ckData)` (encryptor_v2.py:292). -/
def publish (s : Encryptor) (full : Name) (d : Data) : Encryptor :=
  { s with store := Storage.insert s.store (.ok full) d }.emit (.published d)

/-- `regenerateCk` (encryptor_v2.py:147-170), at the time `now` with the random bytes `bits`. -/
def regenerateCk (P : EncParams) (s : Encryptor) (now : Nat) (bits : Bytes) (env : Env) : Encryptor :=
  match Component.fromVersion now with
  | .error _ => s
  | .ok version =>
    let name := P.ckPrefix ++ [ck, version]
    let s := { s with ckName := name, ckBits := bits }.emit (.ck name bits)
    match s.kekData with
    | none => retryFetchingKek P s env
    | some kekData => match makeCkData P s kekData env.random with
      | some (full, d) => s.publish full d
      | none => s.emit (.error .encryptionFailure)

/-- `onData` (encryptor_v2.py:221-227). -/
def onData (P : EncParams) (s : Encryptor) (kekData : Data) (env : Env) : Encryptor :=
  let s := { s with pendingId := 0, kekData := some kekData }.emit (.kek kekData)
  match makeCkData P s kekData env.random with
  | some (full, d) => { s.publish full d with inProgress := false }
  | none => s.kekError .encryptionFailure

/-- `face.callLater`. -/
def callLater (s : Encryptor) (delay : Nat) (t : Timer) : Encryptor := { s with timers := s.timers ++ [t] }.emit (.callLater delay)

/-- `onTimeout` (encryptor_v2.py:229-239).  If the onError of the application raises, nothing is scheduled. -/
def onTimeout (P : EncParams) (s : Encryptor) (nTriesLeft : Nat) (env : Env) : Encryptor :=
  let s := { s with pendingId := 0 }
  if nTriesLeft > 1 then fetchKek P s (nTriesLeft - 1) env
  else
    let s := s.kekError .kekRetrievalTimeout
    if env.errorRaises then s else s.callLater 60000 .retry

/-- `onNetworkNack` (encryptor_v2.py:241-253). -/
def onNetworkNack (s : Encryptor) (nTriesLeft : Nat) (env : Env) : Encryptor :=
  let s := { s with pendingId := 0 }
  if nTriesLeft > 1 then s.callLater 1000 (.fetch (nTriesLeft - 1))
  else
    let s := s.kekError .kekRetrievalFailure
    if env.errorRaises then s else s.callLater 60000 .retry

/-- What `callLater` calls. -/
def fire (P : EncParams) (s : Encryptor) (t : Timer) (env : Env) : Encryptor :=
  match t with
  | .retry => retryFetchingKek P s env
  | .fetch n => fetchKek P s n env

/-- `shutdown` (encryptor_v2.py:115-118).  The Interest filter is not modelled. -/
def shutdown (s : Encryptor) : Encryptor :=
  if s.pendingId > 0 then { s with outstanding := s.outstanding.filter fun x => x.1 ≠ s.pendingId } else s

/-- `onInterest` (encryptor_v2.py:93-105). -/
def onInterest (s : Encryptor) (name : Name) : Encryptor :=
  match Storage.find name s.store with
  | some d => s.emit (.putData d)
  | none => s

/-- `encrypt` (encryptor_v2.py:120-145), with the random bytes `iv`. -/
def encrypt (P : EncParams) (s : Encryptor) (plain iv : Bytes) : EncryptedContent :=
  { keyLocator := { type := some 1, keyName := s.ckName }
    initialVector := some iv
    payload := some (P.aes.encryptCbc s.ckBits iv plain) }

end Encryptor

/-- The calls of the application and of the face. -/
inductive EAct where
  | regenerateCk (now : Nat) (bits : Bytes) (env : Env)
  | data (id : Nat) (kekData : Data) (env : Env)
  | timeout (id : Nat) (env : Env)
  | nack (id : Nat) (env : Env)
  /-- The face makes the call number `i` of those that are scheduled. -/
  | fire (i : Nat) (env : Env)
  | interest (name : Name)
  | shutdown

namespace Encryptor

/-- The calls that the application and the face make; a call which the face does not make does nothing. -/
def step (P : EncParams) (s : Encryptor) : EAct → Encryptor
  | .regenerateCk now bits env => s.regenerateCk P now bits env
  | .data id d env => match Fetch.Fetcher.take id s.outstanding with
    | some (_, rest) => { s with outstanding := rest }.onData P d env
    | none => s
  | .timeout id env => match Fetch.Fetcher.take id s.outstanding with
    | some (n, rest) => { s with outstanding := rest }.onTimeout P n env
    | none => s
  | .nack id env => match Fetch.Fetcher.take id s.outstanding with
    | some (n, rest) => { s with outstanding := rest }.onNetworkNack n env
    | none => s
  | .fire i env => match s.timers[i]? with
    | some t => { s with timers := s.timers.eraseIdx i }.fire P t env
    | none => s
  | .interest name => s.onInterest name
  | .shutdown => s.shutdown

/-- The constructor (encryptor_v2.py:74-91), at the time `now` with the random bytes `bits`. -/
def start (P : EncParams) (now : Nat) (bits : Bytes) (env : Env) : Encryptor := regenerateCk P {} now bits env

def run (P : EncParams) (now : Nat) (bits : Bytes) (env : Env) (acts : List EAct) : Encryptor := acts.foldl (step P) (start P now bits env)

end Encryptor

/-! ### DecryptorV2 -/

/-- What a DecryptorV2 is made with, and what is not modelled: the key chain of the member decrypts with the private key of the credentials,
None if it raises, a null Blob if it has no such key; a private key decrypts, None if it raises. -/
structure DecParams where
  kc : KeyChain.Params
  credentials : Name
  aes : Aes
  credDecrypt : Nat → Option Bytes → Option (Option Bytes)
  rsaDecrypt : Nat → Bytes → Option Bytes
  /-- Whether the onError callback of a call raises. -/
  raises : Nat → Bool := fun _ => false

/-- `ContentKey` (decryptor_v2.py:137-153): `bits` is None until it is retrieved; a pending decrypt has the number of the call. -/
structure Entry where
  bits : Option Bytes := none
  pendingId : Nat := 0
  pending : List (Nat × EncryptedContent) := []
  deriving DecidableEq

/-- An Interest that was expressed: for a CK or a KDK, for the ContentKey `name`; its callbacks call the onError of the call `owner`. -/
inductive Job where
  | ck (name : Name) (owner nTriesLeft : Nat)
  | kdk (name : Name) (kdkPrefix : Name) (ckData : Data) (owner nTriesLeft : Nat)
  deriving DecidableEq

inductive DEv where
  /-- `decrypt` is called; the calls are numbered. -/
  | call (call : Nat) (content : EncryptedContent)
  | express (id : Nat) (interest : Interest)
  /-- The bits of a CK were retrieved. -/
  | retrieved (name : Name) (bits : Bytes)
  | success (call : Nat) (plain : Bytes)
  | error (call : Nat) (code : Code)
  deriving DecidableEq

structure Decryptor where
  entries : List (Name × Entry) := []
  kc : KC := {}
  outstanding : List (Nat × Job) := []
  nextId : Nat := 1
  calls : Nat := 0
  trace : List DEv := []

namespace Decryptor

def emit (s : Decryptor) (e : DEv) : Decryptor := { s with trace := s.trace ++ [e] }

/-- Code that can raise: the second part tells whether it did. -/
abbrev Do := Decryptor → Decryptor × Bool

/-- `onError(code, message)` of a call. -/
def error (P : DecParams) (call : Nat) (code : Code) : Do := fun s => (s.emit (.error call code), P.raises call)

/-- `try: m except Exception: h`. -/
def tryDo (m h : Do) : Do := fun s => match m s with
  | (s', true) => h s'
  | (s', false) => (s', false)

def updateEntry (name : Name) (f : Entry → Entry) (s : Decryptor) : Decryptor :=
  { s with entries := match dictGet name s.entries with | some e => dictSet name (f e) s.entries | none => s.entries }

def setPending (name : Name) (id : Nat) : Decryptor → Decryptor := updateEntry name fun e => { e with pendingId := id }

/-- `_doDecrypt` (decryptor_v2.py:370-398). -/
def doDecrypt (P : DecParams) (call : Nat) (content : EncryptedContent) (bits : Bytes) : Do := fun s =>
  match content.initialVector with
  | none => error P call .missingRequiredInitialVector s
  | some iv => match P.aes.decryptCbc bits iv content.payload with
    | none => error P call .decryptionFailure s
    | some plain => (s.emit (.success call plain), false)

/-- `face.expressInterest` for the ContentKey `name`, and the `except` (decryptor_v2.py:229-235, 291-297). -/
def expressFor (P : DecParams) (name : Name) (owner : Nat) (interest : Interest) (job : Job) (env : Env) : Do := fun s =>
  let id := s.nextId
  let s := { s with nextId := s.nextId + 1 }.emit (.express id interest)
  match env.express with
  | .ok => (setPending name id { s with outstanding := s.outstanding ++ [(id, job)] }, false)
  | .raises tabled => error P owner .general { s with outstanding := s.outstanding ++ if tabled then [(id, job)] else [] }

/-- `_fetchCk` (decryptor_v2.py:155-235), without its callbacks. -/
def fetchCk (P : DecParams) (name : Name) (owner nTriesLeft : Nat) (env : Env) : Do :=
  expressFor P name owner { name := name, mustBeFresh := false, maxSuffix := none } (.ck name owner nTriesLeft) env

/-- `_fetchKdk` (decryptor_v2.py:237-297), without its callbacks. -/
def fetchKdk (P : DecParams) (name kdkPrefix : Name) (ckData : Data) (owner nTriesLeft : Nat) (env : Env) : Do :=
  expressFor P name owner { name := kdkPrefix ++ [encryptedBy] ++ P.credentials, mustBeFresh := true, maxSuffix := some 1 }
    (.kdk name kdkPrefix ckData owner nTriesLeft) env

/-- `decrypt` (decryptor_v2.py:81-135). -/
def decrypt (P : DecParams) (content : EncryptedContent) (env : Env) : Do := fun s =>
  let call := s.calls
  let s := { s with calls := s.calls + 1 }.emit (.call call content)
  if content.keyLocator.type ≠ some 1 then error P call .missingRequiredKeyLocator s
  else if content.initialVector.isNone then error P call .missingRequiredInitialVector s
  else
    let name := content.keyLocator.keyName
    match dictGet name s.entries with
    | some e => match e.bits with
      | some bits => doDecrypt P call content bits s
      | none => (updateEntry name (fun e => { e with pending := e.pending ++ [(call, content)] }) s, false)
    | none => fetchCk P name call 3 env { s with entries := dictSet name { pending := [(call, content)] } s.entries }

/-- `_extractKdkInfoFromCkName` with `_convertKekNameToKdkPrefix` (decryptor_v2.py:400-462): the KDK prefix, identity and key name. -/
def extractKdkInfo (ckDataName ckName : Name) : Except Code (Name × Name × Name) :=
  if ckDataName.length < ckName.length + 1 || !Name.equals (ckDataName.take ckName.length) ckName ||
      !(ckDataName[ckName.length]?.any (·.equals encryptedBy)) then .error .ckInvalidName
  else
    let kekName := ckDataName.drop (ckName.length + 1)
    if kekName.length < 2 || !(kekName[kekName.length - 2]?.any (·.equals kek)) then .error .kekInvalidName
    else
      let identity := kekName.take (kekName.length - 2)
      let last := kekName.drop (kekName.length - 1)
      .ok (identity ++ [kdk] ++ last, identity, identity ++ [Validator.keyComponent] ++ last)

/-- Whether the KDK was imported (decryptor_v2.py:186-201). -/
def kdkExists (P : DecParams) (identity keyName : Name) : K Bool :=
  (do
    let h ← KeyChain.getIdentity identity
    let _ ← KeyChain.keyGet P.kc h keyName
    return true).exceptPib (pure false)

/-- The loop over the pending decrypts (decryptor_v2.py:362-366); an exception ends it. -/
def processPending (P : DecParams) (bits : Bytes) : List (Nat × EncryptedContent) → Do
  | [], s => (s, false)
  | (call, content) :: rest, s => match doDecrypt P call content bits s with
    | (s', true) => (s', true)
    | (s', false) => processPending P bits rest s'

/-- `_decryptCkAndProcessPendingDecrypts` (decryptor_v2.py:331-368). -/
def decryptCk (P : DecParams) (name : Name) (ckData : Data) (kdkKeyName : Name) (owner : Nat) : Do := fun s =>
  match ckData.content.map Encrypt.decodeEncryptedContentV2 with
  | none => error P owner .invalidEncryptedFormat s
  | some (.error _) => error P owner .invalidEncryptedFormat s
  | some (.ok content) =>
    match KeyChain.findKey kdkKeyName s.kc with
    | (.error _, kc) => error P owner .decryptionFailure { s with kc := kc }
    | (.ok none, kc) => error P owner .tpmKeyNotFound { s with kc := kc }
    | (.ok (some p), kc) =>
      let s := { s with kc := kc }
      match P.rsaDecrypt p (content.payload.getD []) with
      | none => error P owner .decryptionFailure s
      | some bits =>
        let s := (updateEntry name (fun e => { e with bits := some bits }) s).emit (.retrieved name bits)
        match processPending P bits (match dictGet name s.entries with | some e => e.pending | none => []) s with
        | (s', true) => (s', true)
        | (s', false) => (updateEntry name (fun e => { e with pending := [] }) s', false)

/-- `onData` of `_fetchCk` (decryptor_v2.py:173-213). -/
def onCkData (P : DecParams) (name : Name) (owner : Nat) (ckData : Data) (env : Env) : Do :=
  tryDo (fun s =>
    let s := setPending name 0 s
    match extractKdkInfo ckData.name name with
    | .error code => error P owner code s
    | .ok (kdkPrefix, identity, keyName) => match kdkExists P identity keyName s.kc with
      | (.ok true, kc) => decryptCk P name ckData keyName owner { s with kc := kc }
      | (.ok false, kc) => fetchKdk P name kdkPrefix ckData owner 3 env { s with kc := kc }
      | (.error _, kc) => ({ s with kc := kc }, true))
    (error P owner .general)

/-- The key of the KDK packet (decryptor_v2.py:267-268). -/
def kdkKeyName (kdkPrefix : Name) : Name :=
  kdkPrefix.take (kdkPrefix.length - 2) ++ [Validator.keyComponent] ++ kdkPrefix.drop (kdkPrefix.length - 1)

/-- The body of `_decryptAndImportKdk` (decryptor_v2.py:310-324): whether it imported the key, the error that it reports, or None if it raises. -/
def importKdk (P : DecParams) (kdkData : Data) (env : Env) : K (Option Code) := do
  let content ← KeyChain.lift (match kdkData.content with | some c => Encrypt.decodeEncryptedContentV2 c | none => .error .type)
  let bag ← KeyChain.lift (match content.payload with | some p => SafeBag.wireDecode p | none => .error .type)
  match P.credDecrypt env.random content.payloadKey with
  | none => KeyChain.raise .tpm
  | some none => return some .tpmKeyNotFound
  | some (some secret) =>
    KeyChain.importSafeBag P.kc bag.certificate bag.privateKeyBag (some secret) env.random
    return none

/-- `onData` of `_fetchKdk` with `_decryptAndImportKdk` (decryptor_v2.py:258-273, 299-329).  If the onError for a missing key raises, the
`except` calls onError again. -/
def onKdkData (P : DecParams) (name kdkPrefix : Name) (ckData : Data) (owner : Nat) (kdkData : Data) (env : Env) : Do :=
  tryDo (fun s =>
    let s := setPending name 0 s
    match importKdk P kdkData env s.kc with
    | (.ok none, kc) => decryptCk P name ckData (kdkKeyName kdkPrefix) owner { s with kc := kc }
    | (.ok (some code), kc) => tryDo (error P owner code) (error P owner .decryptionFailure) { s with kc := kc }
    | (.error _, kc) => error P owner .decryptionFailure { s with kc := kc })
    (error P owner .general)

/-- `onTimeout` (decryptor_v2.py:215-221, 275-283). -/
def onTimeout (P : DecParams) (job : Job) (env : Env) : Do := fun s =>
  match job with
  | .ck name owner n =>
    if n > 1 then fetchCk P name owner (n - 1) env (setPending name 0 s) else error P owner .ckRetrievalTimeout (setPending name 0 s)
  | .kdk name p d owner n =>
    if n > 1 then fetchKdk P name p d owner (n - 1) env (setPending name 0 s) else error P owner .kdkRetrievalTimeout (setPending name 0 s)

/-- `onNetworkNack` (decryptor_v2.py:223-227, 285-289). -/
def onNetworkNack (P : DecParams) (job : Job) : Do := fun s =>
  match job with
  | .ck name owner _ => error P owner .ckRetrievalFailure (setPending name 0 s)
  | .kdk name _ _ owner _ => error P owner .kdkRetrievalFailure (setPending name 0 s)

/-- The loop over the pending decrypts of `shutdown` (decryptor_v2.py:73-76). -/
def cancelPending (P : DecParams) : List (Nat × EncryptedContent) → Do
  | [], s => (s, false)
  | (call, _) :: rest, s => match error P call .ckRetrievalFailure s with
    | (s', true) => (s', true)
    | (s', false) => cancelPending P rest s'

/-- `shutdown` (decryptor_v2.py:67-79), the loop over the content keys. -/
def shutdownLoop (P : DecParams) : List (Name × Entry) → Do
  | [], s => (s, false)
  | (name, e) :: rest, s =>
    if e.pendingId > 0 then
      let s := setPending name 0 { s with outstanding := s.outstanding.filter fun x => x.1 ≠ e.pendingId }
      match cancelPending P e.pending s with
      | (s', true) => (s', true)
      | (s', false) => shutdownLoop P rest (updateEntry name (fun e => { e with pending := [] }) s')
    else shutdownLoop P rest s

def shutdown (P : DecParams) : Do := fun s => shutdownLoop P s.entries s

end Decryptor

inductive DAct where
  | decrypt (content : EncryptedContent) (env : Env)
  | data (id : Nat) (data : Data) (env : Env)
  | timeout (id : Nat) (env : Env)
  | nack (id : Nat)
  | shutdown

namespace Decryptor

/-- The calls that the application and the face make; a call which the face does not make does nothing.  An exception that reaches the
caller is dropped: the face logs it. -/
def step (P : DecParams) (s : Decryptor) : DAct → Decryptor
  | .decrypt content env => (decrypt P content env s).1
  | .data id d env => match Fetch.Fetcher.take id s.outstanding with
    | some (.ck name owner _, rest) => (onCkData P name owner d env { s with outstanding := rest }).1
    | some (.kdk name p ckData owner _, rest) => (onKdkData P name p ckData owner d env { s with outstanding := rest }).1
    | none => s
  | .timeout id env => match Fetch.Fetcher.take id s.outstanding with
    | some (job, rest) => (onTimeout P job env { s with outstanding := rest }).1
    | none => s
  | .nack id => match Fetch.Fetcher.take id s.outstanding with
    | some (job, rest) => (onNetworkNack P job { s with outstanding := rest }).1
    | none => s
  | .shutdown => (shutdown P s).1

def run (P : DecParams) (acts : List DAct) : Decryptor := acts.foldl (step P) {}

end Decryptor

/-! ### AccessManagerV2 -/

/-- A byte of the secret of `addMember` (access_manager_v2.py:152-164), from a random byte. -/
def secretByte (random : UInt8) : UInt8 := (if random = 0 then 1 else random) &&& 0x7f

/-- The name of the KEK packet (access_manager_v2.py:91-97). -/
def kekName (nacKey : Name) : Name := KeyChain.identityOfKey nacKey ++ [kek] ++ nacKey.drop (nacKey.length - 1)

/-- The KEK packet before it is signed (access_manager_v2.py:96-99). -/
def kekData (nacKey : Name) (certificate : Data) : Data :=
  { certificate with name := kekName nacKey, metaInfo := { certificate.metaInfo with freshnessPeriod := some 3600000 } }

/-- The name of the KDK packet of a member (access_manager_v2.py:144-150). -/
def kdkName (nacKey memberKey : Name) : Name :=
  KeyChain.identityOfKey nacKey ++ [kdk] ++ nacKey.drop (nacKey.length - 1) ++ [encryptedBy] ++ memberKey

/-- The KDK packet of `addMember` before it is signed (access_manager_v2.py:134-180): the safe bag of the NAC key, with the secret as
password, and the secret encrypted with the public key of the member (`rsaEncrypt`, see `EncParams`). -/
def kdkData (rsaEncrypt : Option Bytes → Bytes → Nat → Option Bytes) (nacKey : Name) (bag : SafeBag) (memberCertificate : Data)
    (randomBytes : Bytes) (random : Nat) : Except Err Data := do
  let secret := randomBytes.map secretByte
  let payload ← bag.wireEncode
  match rsaEncrypt memberCertificate.content secret random with
  | none => .error .value
  | some payloadKey =>
    return { name := kdkName nacKey (KeyChain.keyOfCert memberCertificate.name)
             content := some (Encrypt.encodeEncryptedContentV2 { payload := some payload, payloadKey := some payloadKey })
             metaInfo := { freshnessPeriod := some 3600000 } }

end Nac
end PyNDN
