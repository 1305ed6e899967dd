import Verif.Model.GroupManager
import Verif.Model.ExcludeRange
/-
Model of `Producer` (encrypt/producer.py) and `Sqlite3ProducerDb` (encrypt/sqlite3_producer_db.py).

Simplifications.  There is no key retrieval Link.  The database does what SQLite documents.  `round` and division of floats are exact (time slots are
of the size of times in milliseconds).  The callbacks given by the application do not call the producer.  The face calls, for each Interest that
was expressed, at most one of its callbacks, once, and not while `expressInterest` runs (see C30, C33); it catches what a callback raises.
-/
namespace PyNDN.Producer
open EncV1
open Encrypt (pyRound)
open Group (isoComponent)
open PSync (dictGet dictSet dictDel)

/-- `_KeyInfo` (producer.py:219-223). -/
structure KeyInfo where
  beginSlot : Int := 0
  endSlot : Int := 0
  keyBits : Bytes := []
  deriving DecidableEq

/-- `_KeyRequest` (producer.py:225-230). -/
structure KeyRequest where
  count : Int
  attempts : List (Name × Nat) := []
  keys : List Data := []

/-- An Interest that was expressed, with what its callbacks hold: the time slot and onEncryptedKeys. -/
structure Pending where
  id : Nat
  name : Name
  exclude : Exclude
  timeSlot : ℚ
  cb : Option Nat

/-- What the producer does and what the face tells it, in order. -/
inductive Out where
  /-- An Interest is expressed; `again` if it is for a timeout. -/
  | sent (p : Pending) (again : Bool)
  /-- The face calls onData. -/
  | answered (p : Pending) (d : Data)
  /-- onEncryptedKeys is called. -/
  | keys (cb : Nat) (l : List Data)
  /-- onError is called, for this time slot. -/
  | error (timeCount : Int)

structure St where
  /-- The table of content keys. -/
  db : List (Int × Bytes) := []
  info : List (Name × KeyInfo) := []
  requests : List (Int × KeyRequest) := []
  pending : List Pending := []
  next : Nat := 0
  out : List Out := []

/-- `keyChain.sign`, RSA and AES are not modelled. -/
structure Params where
  pre : Name
  dataType : Name
  maxRepeat : Nat := 3
  rsa : Rsa
  aes : Nac.Aes
  sign : Data → Except Err Data

/-- Random choices. -/
structure Env where
  key : Bytes := List.replicate 16 0
  iv : Bytes := List.replicate 16 0
  rnd : Nat → Random := fun _ => {}

def M (α : Type) : Type := St → Except Err α × St
def M.pure (a : α) : M α := fun s => (.ok a, s)
def M.bind (m : M α) (f : α → M β) : M β := fun s =>
  match m s with
  | (.ok a, s') => f a s'
  | (.error e, s') => (.error e, s')
instance : Monad M where
  pure := M.pure
  bind := M.bind

def raise (e : Err) : M α := fun s => (.error e, s)
def lifted (x : Except Err α) : M α := fun s => (x, s)
def get : M St := fun s => (.ok s, s)
def modify (f : St → St) : M Unit := fun s => (.ok (), f s)

/-- `_namespace` (producer.py:101-103). -/
def Params.space (P : Params) : Name := P.pre ++ sampleC :: P.dataType

/-- The loop of the constructor (producer.py:91-98): the names for the last `n` passes. -/
def nodesFrom (P : Params) : Nat → List Name
  | 0 => []
  | n + 1 => (P.pre ++ readC :: P.dataType.take (n + 1) ++ [eKeyC]) :: nodesFrom P n

def nodes (P : Params) : List Name := nodesFrom P P.dataType.length

/-- The constructor (producer.py:71-103), with the database. -/
def new (P : Params) (db : List (Int × Bytes)) : St := { db := db, info := (nodes P).map fun n => (n, {}) }

/-- `ProducerDb.getFixedTimeSlot` (producer_db.py:84-94). -/
def hour (t : ℚ) : Int := pyRound t / 3600000

/-- `_getRoundedTimeSlot` (producer.py:232-243). -/
def rounded (t : ℚ) : Int := hour t * 3600000

/-- `hasContentKey` (sqlite3_producer_db.py:60-85). -/
def hasContentKey (t : ℚ) : M Bool := do return (dictGet (hour t) (← get).db).isSome

/-- `getContentKey` (sqlite3_producer_db.py:87-117). -/
def getContentKey (t : ℚ) : M Bytes := do
  match dictGet (hour t) (← get).db with
  | some k => return k
  | none => raise .runtime

/-- `addContentKey` (sqlite3_producer_db.py:119-140); the index is unique. -/
def addContentKey (t : ℚ) (key : Bytes) : M Unit := do
  if ← hasContentKey t then raise .runtime
  else modify fun s => { s with db := s.db ++ [(hour t, key)] }

/-- `self._keyRequests[timeCount]`. -/
def getRequest (timeCount : Int) : M KeyRequest := do
  match dictGet timeCount (← get).requests with
  | some r => return r
  | none => raise .key

def setRequest (timeCount : Int) (r : KeyRequest) : M Unit := modify fun s => { s with requests := dictSet timeCount r s.requests }

/-- `keyRequest.repeatAttempts[keyName] = n`. -/
def setAttempts (timeCount : Int) (name : Name) (n : Nat) : M Unit := do
  let r ← getRequest timeCount
  setRequest timeCount { r with attempts := dictSet name n r.attempts }

/-- `_sendKeyInterest` (producer.py:245-279). -/
def sendKeyInterest (name : Name) (exclude : Exclude) (t : ℚ) (cb : Option Nat) (again : Bool) : M Unit := modify fun s =>
  let p : Pending := ⟨s.next, name, exclude, t, cb⟩
  { s with pending := s.pending ++ [p], next := s.next + 1, out := s.out ++ [.sent p again] }

/-- `_updateKeyRequest` (producer.py:331-352). -/
def updateKeyRequest (timeCount : Int) (cb : Option Nat) : M Unit := do
  let r ← getRequest timeCount
  let r := { r with count := r.count - 1 }
  setRequest timeCount r
  match r.count, cb with
  | 0, some cb => modify fun s => { s with out := s.out ++ [.keys cb r.keys], requests := dictDel timeCount s.requests }
  | _, _ => return

/-- `_encryptContentKey` (producer.py:403-449). -/
def encryptContentKey (P : Params) (encryptionKey : Bytes) (eKeyName : Name) (t : ℚ) (cb : Option Nat) (rnd : Random) : M Bool := do
  let timeCount := pyRound t
  let _ ← getRequest timeCount
  let stamp ← lifted (isoComponent (rounded t))
  let contentKey ← getContentKey t
  match encryptDataRsa P.rsa P.aes { name := P.space ++ [cKeyC, stamp] } contentKey eKeyName encryptionKey rnd with
  | .error _ =>
    modify fun s => { s with out := s.out ++ [.error timeCount] }
    return false
  | .ok d =>
    let d ← lifted (P.sign d)
    let r ← getRequest timeCount
    setRequest timeCount { r with keys := r.keys ++ [d] }
    updateKeyRequest timeCount cb
    return true

/-- The loop of `createContentKey` (producer.py:168-185); `i` counts the calls of the random generator. -/
def requestKeys (P : Params) (t : ℚ) (cb : Option Nat) (timeRange : Exclude) (rnd : Nat → Random) : Nat → List Name → M Unit
  | _, [] => return
  | i, n :: ns => do
    match dictGet n (← get).info with
    | none => raise .key
    | some info =>
      if t < info.beginSlot ∨ t ≥ info.endSlot then
        setAttempts (pyRound t) n 0
        sendKeyInterest n timeRange t cb false
        requestKeys P t cb timeRange rnd (i + 1) ns
      else
        let b ← lifted (isoComponent info.beginSlot)
        let e ← lifted (isoComponent info.endSlot)
        let _ ← encryptContentKey P info.keyBits (n ++ [b, e]) t cb (rnd i)
        requestKeys P t cb timeRange rnd (i + 1) ns

/-- `createContentKey` (producer.py:113-187). -/
def createContentKey (P : Params) (t : ℚ) (cb : Option Nat) (env : Env) : M Name := do
  let stamp ← lifted (isoComponent (rounded t))
  let contentKeyName := P.space ++ [cKeyC, stamp]
  if ← hasContentKey t then return contentKeyName
  else
    addContentKey t env.key
    setRequest (pyRound t) { count := (← get).info.length }
    let c ← lifted (isoComponent t)
    requestKeys P t cb (ExcludeRange.excludeAfter [] c) env.rnd 0 ((← get).info.map (·.1))
    return contentKeyName

/-- `produce` (producer.py:189-217). -/
def produce (P : Params) (data : Data) (t : ℚ) (content : Bytes) (env : Env) : M Data := do
  let contentKeyName ← createContentKey P t none env
  let contentKey ← getContentKey t
  let stamp ← lifted (isoComponent t)
  let data ← lifted (encryptDataAes P.aes { data with name := P.space ++ [stamp] } content contentKeyName contentKey env.iv)
  lifted (P.sign data)

/-- `_handleNetworkNack` (producer.py:309-329). -/
def handleNetworkNack (t : ℚ) (cb : Option Nat) : M Unit := do
  let _ ← getRequest (pyRound t)
  updateKeyRequest (pyRound t) cb

/-- `_handleTimeout` (producer.py:281-307). -/
def handleTimeout (P : Params) (p : Pending) : M Unit := do
  let r ← getRequest (pyRound p.timeSlot)
  match dictGet p.name r.attempts with
  | none => raise .key
  | some n =>
    if n < P.maxRepeat then
      setAttempts (pyRound p.timeSlot) p.name (n + 1)
      sendKeyInterest p.name p.exclude p.timeSlot p.cb true
    else handleNetworkNack p.timeSlot p.cb

/-- `Schedule.fromIsoString(str(component.getValue()))`. -/
def stampTime (c : Component) : Except Err Int := do fromIsoString (← utf8Decode c.value)

/-- `keyName.get(-2)` and `keyName.get(-1)` (producer.py:378-381). -/
def lastTwo (n : Name) : Except Err (Component × Component) :=
  match n.reverse with
  | e :: b :: _ => .ok (b, e)
  | _ => .error .value

/-- `_handleCoveringKey` (producer.py:354-401). -/
def handleCoveringKey (P : Params) (p : Pending) (d : Data) (env : Env) : M Unit := do
  let _ ← getRequest (pyRound p.timeSlot)
  let (b, e) ← lifted (lastTwo d.name)
  let beginSlot ← lifted (stampTime b)
  let endSlot ← lifted (stampTime e)
  if p.timeSlot ≥ endSlot then
    let timeRange ← lifted (ExcludeRange.excludeBefore p.exclude b)
    setAttempts (pyRound p.timeSlot) p.name 0
    sendKeyInterest p.name timeRange p.timeSlot p.cb false
  else
    let encryptionKey := d.content.getD []
    if ← encryptContentKey P encryptionKey d.name p.timeSlot p.cb (env.rnd 0) then
      match dictGet p.name (← get).info with
      | none => raise .key
      | some _ => modify fun s => { s with info := dictSet p.name ⟨beginSlot, endSlot, encryptionKey⟩ s.info }
    else return

/-! ### Histories -/

/-- A call, an event of the face for an Interest that is pending, or a restart with the same database. -/
inductive Op where
  | create (t : ℚ) (cb : Option Nat) (env : Env)
  | produce (data : Data) (t : ℚ) (content : Bytes) (env : Env)
  | data (id : Nat) (d : Data) (env : Env)
  | timeout (id : Nat)
  | nack (id : Nat)
  | restart

inductive Res where
  | none
  | raised (e : Err)
  | name (n : Name)
  | packet (d : Data)

def M.res (m : M α) (f : α → Res) : St → Res × St := fun s =>
  match m s with
  | (.ok a, s') => (f a, s')
  | (.error e, s') => (.raised e, s')

/-- The face calls a callback of the pending Interest. -/
def answer (id : Nat) (f : Pending → M Unit) (s : St) : Res × St :=
  match s.pending.find? fun p => p.id = id with
  | none => (.none, s)
  | some p => (f p).res (fun _ => .none) { s with pending := s.pending.filter fun q => q.id ≠ id }

def step (P : Params) (s : St) : Op → Res × St
  | .create t cb env => (createContentKey P t cb env).res .name s
  | .produce data t content env => (produce P data t content env).res .packet s
  | .data id d env => answer id (fun p => do
      modify fun s => { s with out := s.out ++ [.answered p d] }
      handleCoveringKey P p d env) s
  | .timeout id => answer id (handleTimeout P) s
  | .nack id => answer id (fun p => handleNetworkNack p.timeSlot p.cb) s
  | .restart => (.none, { new P s.db with next := s.next, out := s.out })

def run (P : Params) : St → List Op → List Res × St
  | s, [] => ([], s)
  | s, op :: ops =>
    let (r, s') := step P s op
    let (rs, s'') := run P s' ops
    (r :: rs, s'')

end PyNDN.Producer
