import Verif.Model.EncryptorV1
import Verif.Model.PSync
/-
Model of `Consumer` (encrypt/consumer.py) and `Sqlite3ConsumerDb` (encrypt/sqlite3_consumer_db.py).

Simplifications.  There are no Links.  The callbacks of the application do not call the consumer; what they raise is always caught and logged, so that
it has no effect.  The face calls, for each Interest that was expressed, at most one of its callbacks, once, and not while `expressInterest` runs (see
C30, C33).  `KeyChain.verifyData` (security/key_chain.py:1149-1207) calls one of its callbacks, once, or raises; the event for a Data is when it does
so.  It catches and logs what onVerified raises (key_chain.py:1197-1200, and likewise in the policy managers).
-/
namespace PyNDN.Consumer
open EncV1
open Encrypt (EncryptedContent encodeEncryptedContent decodeEncryptedContent)
open PSync (dictGet dictSet dictDel)

/-- `EncryptError.ErrorCode` (encrypt_error.py:44-53). -/
inductive Code where
  | general
  | validation
  | unsupported
  | invalidFormat
  | noDecryptKey
  | retrievalFailure
  deriving DecidableEq

/-- What is fetched: what the closure onVerified holds.  `content`: onVerified of `consume` (consumer.py:107-114).  `cKey`: that of `_decryptContent`
(231-238).  `dKey`: that of `_decryptCKey` (280-286), with the callback that `_decryptContent` gave it. -/
inductive Goal where
  | content
  | cKey (data : Data) (content : EncryptedContent)
  | dKey (data : Data) (content cKey : EncryptedContent) (dKeyName : Name)
  deriving DecidableEq

/-- An Interest that was expressed; `call` is for the callbacks of one call of `consume`. -/
structure Pending where
  id : Nat
  call : Nat
  name : Name
  retrials : Nat
  goal : Goal
  deriving DecidableEq

/-- How `verifyData` ends. -/
inductive Verdict where
  | verified
  | failed
  | raises
  deriving DecidableEq

/-- What the consumer does and what the face tells it, in order. -/
inductive Out where
  /-- An Interest is expressed; `again` if it is for a timeout. -/
  | sent (p : Pending) (again : Bool)
  /-- The face calls onData, and this is how the verification ends. -/
  | answered (p : Pending) (d : Data) (v : Verdict)
  /-- onConsumeComplete is called. -/
  | complete (call : Nat) (d : Data) (plain : Bytes)
  /-- onError is called. -/
  | error (call : Nat) (code : Code)
  /-- An exception in onVerified is logged. -/
  | logged (call : Nat)
  deriving DecidableEq

structure St where
  /-- The table of decryption keys, by the encodings of their names. -/
  db : List (Bytes × Bytes) := []
  group : Name
  cKeys : List (Name × Bytes) := []
  dKeys : List (Name × Bytes) := []
  pending : List Pending := []
  next : Nat := 0
  out : List Out := []

/-- RSA and AES are not modelled. -/
structure Params where
  consumerName : Name
  rsa : Rsa
  aes : Nac.Aes

/-- Whether `expressInterest` and `getKey` raise. -/
structure Env where
  expressRaises : Bool := false
  dbRaises : Bool := false

def M (α : Type) : Type := St → Except Err α × St
def M.pure (a : α) : M α := fun s => (.ok a, s)
def M.bind (m : M α) (f : α → M β) : M β := fun s =>
  match m s with
  | (.ok a, s') => f a s'
  | (.error e, s') => (.error e, s')
instance : Monad M where
  pure := M.pure
  bind := M.bind

def raise (e : Err) : M α := fun s => (.error e, s)
def lifted (x : Except Err α) : M α := fun s => (x, s)
def get : M St := fun s => (.ok s, s)
def modify (f : St → St) : M Unit := fun s => (.ok (), f s)

/-- The constructor (consumer.py:61-76), with the database. -/
def new (group : Name) (db : List (Bytes × Bytes)) : St := { db := db, group := group }

/-- `_callOnError` (consumer.py:434-444). -/
def onError (call : Nat) (code : Code) : M Unit := modify fun s => { s with out := s.out ++ [.error call code] }

/-- onPlainText of `consume` (consumer.py:109-113). -/
def onComplete (call : Nat) (d : Data) (plain : Bytes) : M Unit := modify fun s => { s with out := s.out ++ [.complete call d plain] }

/-- `_sendInterest` (consumer.py:351-419). -/
def sendInterest (call : Nat) (name : Name) (retrials : Nat) (goal : Goal) (again : Bool) (env : Env) : M Unit :=
  if env.expressRaises then onError call .general
  else modify fun s =>
    let p : Pending := ⟨s.next, call, name, retrials, goal⟩
    { s with pending := s.pending ++ [p], next := s.next + 1, out := s.out ++ [.sent p again] }

/-- The part of `_decrypt` that decrypts (consumer.py:165-180, 182-192, 194-197): the plain text or the error.  A null initial vector makes
`AesAlgorithm.decrypt` raise. -/
def decryptBits (P : Params) (c : EncryptedContent) (key : Bytes) : Except Code Bytes :=
  if c.algorithmType = some 1 then
    match c.initialVector with
    | none => .error .invalidFormat
    | some iv =>
      match P.aes.decryptCbc key iv c.payload with
      | some plain => .ok plain
      | none => .error .invalidFormat
  else if c.algorithmType = some 3 then
    match P.rsa.decrypt key (c.payload.getD []) with
    | some plain => .ok plain
    | none => .error .invalidFormat
  else .error .unsupported

/-- `_decrypt` of an EncryptedContent (consumer.py:143-197). -/
def decrypt (P : Params) (call : Nat) (c : EncryptedContent) (key : Bytes) (onPlainText : Bytes → M Unit) : M Unit :=
  match decryptBits P c key with
  | .ok plain => onPlainText plain
  | .error code => onError call code

/-- The wireDecode of the content of a Data; that of a null Blob raises. -/
def decodeContent (d : Data) : Except Err EncryptedContent :=
  match d.content with
  | some w => decodeEncryptedContent w
  | none => .error .type

/-- `_decryptContent` (consumer.py:199-239). -/
def decryptContent (P : Params) (call : Nat) (d : Data) (env : Env) : M Unit :=
  match decodeContent d with
  | .error _ => onError call .invalidFormat
  | .ok c => do
    let s ← get
    match dictGet c.keyLocator.keyName s.cKeys with
    | some cKey => decrypt P call c cKey (onComplete call d)
    | none => sendInterest call (c.keyLocator.keyName ++ forC :: s.group) 1 (.cKey d c) false env

/-- localOnPlainText of `_decryptContent` (consumer.py:232-237). -/
def gotCKey (P : Params) (call : Nat) (d : Data) (c : EncryptedContent) (bits : Bytes) : M Unit := do
  modify fun s => { s with cKeys := dictSet c.keyLocator.keyName bits s.cKeys }
  decrypt P call c bits (onComplete call d)

/-- The name of the D-KEY (consumer.py:264-267). -/
def dKeyNameOf (eKeyName : Name) : Except Err Name := do
  let pre ← getPrefix eKeyName (-3)
  let period ← getSubName eKeyName (-2)
  return pre ++ dKeyC :: period

/-- `_decryptCKey` (consumer.py:241-287), for the Data `d` with the encrypted content `c`. -/
def decryptCKey (P : Params) (call : Nat) (d : Data) (c : EncryptedContent) (cKeyData : Data) (env : Env) : M Unit :=
  match decodeContent cKeyData with
  | .error _ => onError call .invalidFormat
  | .ok k => do
    let dKeyName ← lifted (dKeyNameOf k.keyLocator.keyName)
    let s ← get
    match dictGet dKeyName s.dKeys with
    | some dKey => decrypt P call k dKey (gotCKey P call d c)
    | none => sendInterest call (dKeyName ++ forC :: P.consumerName) 1 (.dKey d c k dKeyName) false env

/-- localOnPlainText of `_decryptCKey` (consumer.py:281-285). -/
def gotDKey (P : Params) (call : Nat) (d : Data) (c k : EncryptedContent) (dKeyName : Name) (bits : Bytes) : M Unit := do
  modify fun s => { s with dKeys := dictSet dKeyName bits s.dKeys }
  decrypt P call k bits (gotCKey P call d c)

/-- `_decryptDKey` (consumer.py:289-349) and `getKey` (sqlite3_consumer_db.py:60-84): an empty key is as none. -/
def decryptDKey (P : Params) (call : Nat) (dKeyData : Data) (env : Env) (onPlainText : Bytes → M Unit) : M Unit :=
  match decodeContent dKeyData with
  | .error _ => onError call .invalidFormat
  | .ok nonce =>
    if env.dbRaises then onError call .noDecryptKey
    else do
      let consumerKey := (dictGet (encodeName nonce.keyLocator.keyName) (← get).db).getD []
      if consumerKey.length = 0 then onError call .noDecryptKey
      else
        let w ← lifted (encodeEncryptedContent nonce)
        let rest := (dKeyData.content.getD []).drop w.length
        if rest.length = 0 then onError call .invalidFormat
        else decrypt P call nonce consumerKey fun nonceKey => do
          let payload ← lifted (decodeEncryptedContent rest)
          decrypt P call payload nonceKey onPlainText

/-- onVerified for an Interest (consumer.py:107-114, 231-238, 280-286). -/
def onVerified (P : Params) (p : Pending) (d : Data) (env : Env) : M Unit :=
  match p.goal with
  | .content => decryptContent P p.call d env
  | .cKey data c => decryptCKey P p.call data c d env
  | .dKey data c k dKeyName => decryptDKey P p.call d env (gotDKey P p.call data c k dKeyName)

/-- onData of `_sendInterest` (consumer.py:373-387), with `verifyData`. -/
def onData (P : Params) (p : Pending) (d : Data) (v : Verdict) (env : Env) : M Unit := do
  modify fun s => { s with out := s.out ++ [.answered p d v] }
  match v with
  | .failed => onError p.call .validation
  | .raises => onError p.call .general
  | .verified => fun s =>
    match onVerified P p d env s with
    | (.ok _, s') => (.ok (), s')
    | (.error _, s') => (.ok (), { s' with out := s'.out ++ [.logged p.call] })

/-- onNetworkNack of `_sendInterest` (consumer.py:389-395). -/
def onNack (p : Pending) : M Unit := onError p.call .retrievalFailure

/-- onTimeout of `_sendInterest` (consumer.py:397-401). -/
def onTimeout (p : Pending) (env : Env) : M Unit :=
  if p.retrials > 0 then sendInterest p.call p.name (p.retrials - 1) p.goal true env else onNack p

/-- `consume` (consumer.py:78-116). -/
def consume (call : Nat) (name : Name) (env : Env) : M Unit := sendInterest call name 1 .content false env

/-- `addDecryptionKey` (consumer.py:127-141) and `addKey` (sqlite3_consumer_db.py:86-105); the index is unique. -/
def addDecryptionKey (P : Params) (name : Name) (key : Bytes) : M Unit := do
  if !P.consumerName.matches name then raise .runtime
  else if (dictGet (encodeName name) (← get).db).isSome then raise .runtime
  else modify fun s => { s with db := s.db ++ [(encodeName name, key)] }

/-- `deleteKey` (sqlite3_consumer_db.py:107-124). -/
def deleteKey (name : Name) : M Unit := modify fun s => { s with db := dictDel (encodeName name) s.db }

/-! ### Histories -/

/-- A call, an event of the face for an Interest that is pending, or a restart with the same database. -/
inductive Op where
  | consume (call : Nat) (name : Name) (env : Env)
  | addDecryptionKey (name : Name) (key : Bytes)
  | deleteKey (name : Name)
  | setGroup (group : Name)
  | data (id : Nat) (d : Data) (v : Verdict) (env : Env)
  | timeout (id : Nat) (env : Env)
  | nack (id : Nat)
  | restart (group : Name)

/-- The face calls a callback of the pending Interest. -/
def answer (id : Nat) (f : Pending → M Unit) : M Unit := fun s =>
  match s.pending.find? fun p => p.id = id with
  | none => (.ok (), s)
  | some p => f p { s with pending := s.pending.filter fun q => q.id ≠ id }

/-- The result is whether the call raises. -/
def step (P : Params) : Op → M Unit
  | .consume call name env => consume call name env
  | .addDecryptionKey name key => addDecryptionKey P name key
  | .deleteKey name => deleteKey name
  | .setGroup group => modify fun s => { s with group := group }
  | .data id d v env => answer id fun p => onData P p d v env
  | .timeout id env => answer id fun p => onTimeout p env
  | .nack id => answer id fun p => onNack p
  | .restart group => modify fun s => { new group s.db with next := s.next, out := s.out }

def run (P : Params) : St → List Op → List (Except Err Unit) × St
  | s, [] => ([], s)
  | s, op :: ops =>
    let (r, s') := step P op s
    let (rs, s'') := run P s' ops
    (r :: rs, s'')

end PyNDN.Consumer
