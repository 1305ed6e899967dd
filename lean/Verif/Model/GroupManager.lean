import Verif.Model.EncryptorV1
import Mathlib.Data.List.Sort
import Verif.Model.ScheduleWire
/-
Model of `GroupManager` (encrypt/group_manager.py) and `Sqlite3GroupManagerDb` (encrypt/sqlite3_group_manager_db.py).

Simplifications.  SQLite does what it documents: a statement with the cascade and a following commit is done as a whole or not at all, and it
fails only for a constraint; integers do not overflow.  The order of the rows that a SELECT gives is any order (`Params.order`).  Strings are
sequences of Unicode scalar values.  Names, blobs and schedules are values.  `GroupManager.addMember` is modelled from the name of the key
and the key on, which `IdentityCertificate` takes from the certificate.
-/
namespace PyNDN.Group
open Encrypt (Schedule Interval GroupManager.addAll)
open EncV1
open PSync (dictGet dictSet dictDel)

/-! ### Tables -/

/-- A row of `schedules` (sqlite3_group_manager_db.py:34-43). -/
structure ScheduleRow where
  id : Nat
  name : String
  schedule : Bytes
  deriving DecidableEq

/-- A row of `members` (sqlite3_group_manager_db.py:45-60). -/
structure MemberRow where
  id : Nat
  scheduleId : Nat
  memberName : Bytes
  keyName : Bytes
  pubkey : Bytes
  deriving DecidableEq

/-- A row of `ekeys` (sqlite3_group_manager_db.py:61-70). -/
structure EKeyRow where
  id : Nat
  name : Bytes
  pub : Bytes
  deriving DecidableEq

structure DB where
  schedules : List ScheduleRow := []
  members : List MemberRow := []
  ekeys : List EKeyRow := []
  deriving DecidableEq

/-- The INTEGER PRIMARY KEY of a new row: one more than the largest, so that the number of a deleted row can be used again. -/
def nextId (ids : List Nat) : Nat := ids.foldl max 0 + 1

/-- The statements that write. -/
inductive Stmt where
  | insertSchedule (name : String) (wire : Bytes)
  | deleteSchedule (name : String)
  | renameSchedule (old new : String)
  | updateSchedule (name : String) (wire : Bytes)
  | insertMember (scheduleId : Nat) (member key pub : Bytes)
  | updateMember (scheduleId : Nat) (member : Bytes)
  | deleteMember (member : Bytes)
  | insertEKey (name pub : Bytes)
  | deleteEKey (name : Bytes)

/-- A statement; none for sqlite3.IntegrityError (the unique indexes and the foreign key). -/
def exec (db : DB) : Stmt → Option DB
  | .insertSchedule n w =>
    if db.schedules.any fun r => r.name = n then none
    else some { db with schedules := db.schedules ++ [⟨nextId (db.schedules.map (·.id)), n, w⟩] }
  | .deleteSchedule n => some { db with
      schedules := db.schedules.filter fun r => r.name ≠ n
      members := db.members.filter fun m => !(db.schedules.any fun r => r.name = n ∧ r.id = m.scheduleId) }
  | .renameSchedule old new =>
    if old ≠ new ∧ (db.schedules.any fun r => r.name = old) ∧ (db.schedules.any fun r => r.name = new) then none
    else some { db with schedules := db.schedules.map fun r => if r.name = old then { r with name := new } else r }
  | .updateSchedule n w => some { db with schedules := db.schedules.map fun r => if r.name = n then { r with schedule := w } else r }
  | .insertMember s m k p =>
    if (db.members.any fun r => r.memberName = m) ∨ ¬ (db.schedules.any fun r => r.id = s) then none
    else some { db with members := db.members ++ [⟨nextId (db.members.map (·.id)), s, m, k, p⟩] }
  | .updateMember s m => 
    if (db.members.any fun r => r.memberName = m) ∧ ¬ (db.schedules.any fun r => r.id = s) then none
    else some { db with members := db.members.map fun r => if r.memberName = m then { r with scheduleId := s } else r }
  | .deleteMember m => some { db with members := db.members.filter fun r => r.memberName ≠ m }
  | .insertEKey n p =>
    if db.ekeys.any fun r => r.name = n then none
    else some { db with ekeys := db.ekeys ++ [⟨nextId (db.ekeys.map (·.id)), n, p⟩] }
  | .deleteEKey n => some { db with ekeys := db.ekeys.filter fun r => r.name ≠ n }

/-! ### Methods -/

/-- GroupManagerDb.Error, and other exceptions. -/
inductive GErr where
  | db | py (e : Err)
  deriving DecidableEq

/-- The file of the database, the private keys in memory (`_privateKeyBase`), and the databases that the call has committed. -/
structure St where
  db : DB := {}
  privs : List (Name × Bytes) := []
  log : List DB := []

def M (α : Type) : Type := St → Except GErr α × St

def M.pure (a : α) : M α := fun s => (.ok a, s)
def M.bind (m : M α) (f : α → M β) : M β := fun s =>
  match m s with
  | (.ok a, s') => f a s'
  | (.error e, s') => (.error e, s')
instance : Monad M where
  pure := M.pure
  bind := M.bind

def raise (e : GErr) : M α := fun s => (.error e, s)
def select (f : DB → α) : M α := fun s => (.ok (f s.db), s)
/-- `cursor.execute` of a statement that writes, and `commit`; an exception is turned into GroupManagerDb.Error. -/
def write (q : Stmt) : M Unit := fun s =>
  match exec s.db q with
  | some db => (.ok (), { s with db := db, log := s.log ++ [db] })
  | none => (.error .db, s)
/-- A computation in a `try` that turns an exception into GroupManagerDb.Error. -/
def tried (x : Except Err α) : M α := match x with
  | .ok a => pure a
  | .error _ => raise .db
def lifted (x : Except Err α) : M α := match x with
  | .ok a => pure a
  | .error e => raise (.py e)
def getPrivs : M (List (Name × Bytes)) := fun s => (.ok s.privs, s)
def setPrivs (p : List (Name × Bytes)) : M Unit := fun s => (.ok (), { s with privs := p })

/-- What the object is made with (group_manager.py:52-60), and what is not modelled: `keyChain.sign`; the order of the rows of a SELECT. -/
structure Params where
  pre : Name
  dataType : Name
  freshnessHours : Nat
  rsa : Rsa
  aes : Nac.Aes
  sign : Data → Except Err Data
  order : {α : Type} → List α → List α

/-- `_getScheduleId` (sqlite3_group_manager_db.py:592-614); None is -1. -/
def getScheduleId (n : String) : M (Option Nat) := select fun db => (db.schedules.find? fun r => r.name = n).map (·.id)

/-- `hasSchedule` (sqlite3_group_manager_db.py:99-121). -/
def hasSchedule (n : String) : M Bool := select fun db => (db.schedules.find? fun r => r.name = n).isSome

/-- `listAllScheduleNames` (sqlite3_group_manager_db.py:123-144). -/
def listAllScheduleNames (P : Params) : M (List String) := select fun db => (P.order db.schedules).map (·.name)

/-- `getSchedule` (sqlite3_group_manager_db.py:146-175). -/
def getSchedule (n : String) : M Schedule := do
  match ← select fun db => db.schedules.find? fun r => r.name = n with
  | some r => tried (Schedule.wireDecode r.schedule)
  | none => raise .db

/-- `for (keyNameEncoding, keyEncoding) in results` (sqlite3_group_manager_db.py:200-203), from the last to the first. -/
def decodedMembers : List MemberRow → M (List (Name × Bytes))
  | [] => pure []
  | r :: rs => do
    let n ← tried (decodeName r.keyName)
    let ms ← decodedMembers rs
    return (n, r.pubkey) :: ms

/-- `getScheduleMembers` (sqlite3_group_manager_db.py:177-209). -/
def getScheduleMembers (P : Params) (n : String) : M (List (Name × Bytes)) := do
  let rows ← select fun db => P.order (db.members.filter fun m => db.schedules.any fun r => r.name = n ∧ r.id = m.scheduleId)
  let ms ← decodedMembers rows
  return GroupManager.addAll [] ms

/-- `addSchedule` (sqlite3_group_manager_db.py:211-234). -/
def addSchedule (n : String) (s : Schedule) : M Unit := do
  if n.length = 0 then raise .db
  else
    let wire ← tried s.wireEncode
    write (.insertSchedule n wire)

/-- `deleteSchedule` (sqlite3_group_manager_db.py:236-252). -/
def deleteSchedule (n : String) : M Unit := write (.deleteSchedule n)

/-- `renameSchedule` (sqlite3_group_manager_db.py:254-278). -/
def renameSchedule (old new : String) : M Unit :=
  if new.length = 0 then raise .db else write (.renameSchedule old new)

/-- `updateSchedule` (sqlite3_group_manager_db.py:280-305). -/
def updateSchedule (n : String) (s : Schedule) : M Unit := do
  if !(← hasSchedule n) then addSchedule n s
  else
    let wire ← tried s.wireEncode
    write (.updateSchedule n wire)

/-- `hasMember` (sqlite3_group_manager_db.py:309-332). -/
def hasMember (identity : Name) : M Bool := select fun db => (db.members.find? fun r => r.memberName = encodeName identity).isSome

/-- The loop of `listAllMembers` (sqlite3_group_manager_db.py:348-351). -/
def decodedNames : List MemberRow → M (List Name)
  | [] => pure []
  | r :: rs => do
    let n ← tried (decodeName r.memberName)
    let ns ← decodedNames rs
    return n :: ns

/-- `listAllMembers` (sqlite3_group_manager_db.py:334-357). -/
def listAllMembers (P : Params) : M (List Name) := do decodedNames (← select fun db => P.order db.members)

/-- `getMemberSchedule` (sqlite3_group_manager_db.py:359-390). -/
def getMemberSchedule (identity : Name) : M String := do
  match ← select fun db => (db.members.find? fun m => m.memberName = encodeName identity).bind fun m => db.schedules.find? fun r => r.id = m.scheduleId with
  | some r => return r.name
  | none => raise .db

/-- `addMember` (sqlite3_group_manager_db.py:392-423). -/
def addMember (scheduleName : String) (keyName : Name) (key : Bytes) : M Unit := do
  match ← getScheduleId scheduleName with
  | none => raise .db
  | some i =>
    let memberName ← lifted (getPrefix keyName (-1))
    write (.insertMember i (encodeName memberName) (encodeName keyName) key)

/-- `updateMemberSchedule` (sqlite3_group_manager_db.py:425-450). -/
def updateMemberSchedule (identity : Name) (scheduleName : String) : M Unit := do
  match ← getScheduleId scheduleName with
  | none => raise .db
  | some i => write (.updateMember i (encodeName identity))

/-- `deleteMember` (sqlite3_group_manager_db.py:452-469). -/
def deleteMember (identity : Name) : M Unit := write (.deleteMember (encodeName identity))

/-- `hasEKey` (sqlite3_group_manager_db.py:471-494). -/
def hasEKey (n : Name) : M Bool := select fun db => (db.ekeys.find? fun r => r.name = encodeName n).isSome

/-- `addEKey` (sqlite3_group_manager_db.py:496-518). -/
def addEKey (n : Name) (pub priv : Bytes) : M Unit := do
  write (.insertEKey (encodeName n) pub)
  setPrivs (dictSet n priv (← getPrivs))

/-- `getEKey` (sqlite3_group_manager_db.py:520-550). -/
def getEKey (n : Name) : M (Bytes × Bytes) := do
  match ← select fun db => db.ekeys.find? fun r => r.name = encodeName n with
  | none => raise .db
  | some r => match dictGet n (← getPrivs) with
    | none => raise (.py .key)
    | some priv => return (r.pub, priv)

/-- `deleteEKey` (sqlite3_group_manager_db.py:571-590). -/
def deleteEKey (n : Name) : M Unit := do
  write (.deleteEKey (encodeName n))
  let p ← getPrivs
  match dictGet n p with
  | none => raise (.py .key)
  | some _ => setPrivs (dictDel n p)

/-- `cleanEKeys` (sqlite3_group_manager_db.py:552-569): the statement has no parameter but one is given, for which `execute` raises
sqlite3.ProgrammingError. -/
def cleanEKeys : M Unit := raise .db

/-! ### GroupManager -/

/-- The loop of `_calculateInterval` (group_manager.py:234-253). -/
def loop (P : Params) (timeSlot : ℚ) : List String → Interval → Interval → List (Name × Bytes) → M (Interval × Interval × List (Name × Bytes))
  | [], pos, neg, keys => pure (pos, neg, keys)
  | n :: ns, pos, neg, keys => do
    let schedule ← getSchedule n
    let (isPositive, temp) ← lifted (schedule.getCoveringInterval timeSlot)
    if isPositive then
      let pos := if !pos.isValid then temp else pos
      let pos ← lifted (pos.intersectWith temp)
      let members ← getScheduleMembers P n
      loop P timeSlot ns pos neg (GroupManager.addAll keys members)
    else
      let neg := if !neg.isValid then temp else neg
      let neg ← lifted (neg.intersectWith temp)
      loop P timeSlot ns pos neg keys

/-- `_calculateInterval` (group_manager.py:210-266). -/
def calculateInterval (P : Params) (timeSlot : ℚ) : M (Interval × List (Name × Bytes)) := do
  let names ← listAllScheduleNames P
  let (pos, neg, keys) ← loop P timeSlot names (.empty false) (.empty false) []
  if !pos.isValid then return (.empty false, keys)
  else if neg.isValid then return (← lifted (pos.intersectWith neg), keys)
  else return (pos, keys)

/-- `Schedule.toIsoString` (schedule.py:316-328). -/
def isoComponent (t : ℚ) : Except Err Component := (toIsoString (Encrypt.pyRound (t / 1000) * 1000)).map fun s => .generic (asciiBytes s)

/-- `_namespace` (group_manager.py:54-55). -/
def Params.space (P : Params) : Name := P.pre ++ readC :: P.dataType

/-- `_createEKeyData` (group_manager.py:286-305). -/
def createEKeyData (P : Params) (start stop : Component) (pub : Bytes) : Except Err Data :=
  P.sign { name := P.space ++ [eKeyC, start, stop], metaInfo := { freshnessPeriod := some (P.freshnessHours * 3600000) }, content := some pub }

/-- `_createDKeyData` (group_manager.py:307-333). -/
def createDKeyData (P : Params) (start stop : Component) (keyName : Name) (priv key : Bytes) (rnd : Random) : Except Err Data := do
  let data : Data := { name := P.space ++ [dKeyC, start, stop], metaInfo := { freshnessPeriod := some (P.freshnessHours * 3600000) } }
  let data ← encryptDataRsa P.rsa P.aes data priv keyName key rnd
  P.sign data

/-- The loop of `getGroupKey` over the sorted names of keys (group_manager.py:113-121); `i` counts the calls of the random generator. -/
def createDKeys (P : Params) (start stop : Component) (priv : Bytes) (rnd : Nat → Random) : Nat → List (Name × Bytes) → Except Err (List Data)
  | _, [] => .ok []
  | i, (n, key) :: ks => do
    let d ← createDKeyData P start stop n priv key (rnd i)
    let ds ← createDKeys P start stop priv rnd (i + 1) ks
    return d :: ds

/-- `sorted` of the keys of the dictionary (group_manager.py:113), by `Name.__lt__`. -/
def sortedKeys (keys : List (Name × Bytes)) : List (Name × Bytes) := keys.insertionSort fun a b => ¬ b.1.compare a.1 < 0

/-- The choices of the environment in a call of `getGroupKey`: the private key that is generated (None if the generation raises), and the random
numbers. -/
structure Env where
  priv : Option Bytes := none
  rnd : Nat → Random := fun _ => {}

/-- `_generateKeyPair` (group_manager.py:268-284). -/
def generateKeyPair (P : Params) (env : Env) : M (Bytes × Bytes) :=
  match env.priv with
  | none => raise (.py .value)
  | some priv => match P.rsa.derive priv with
    | none => raise (.py .value)
    | some pub => pure (priv, pub)

/-- group_manager.py:97-103: the public and the private key. -/
def keyPair (P : Params) (eKeyName : Name) (needRegenerate : Bool) (env : Env) : M (Bytes × Bytes) := do
  if !needRegenerate && (← hasEKey eKeyName) then getEKey eKeyName
  else
    let (priv, pub) ← generateKeyPair P env
    if ← hasEKey eKeyName then
      deleteEKey eKeyName
      addEKey eKeyName pub priv
      return (pub, priv)
    else
      addEKey eKeyName pub priv
      return (pub, priv)

/-- `getGroupKey` (group_manager.py:62-123). -/
def getGroupKey (P : Params) (timeSlot : ℚ) (needRegenerate : Bool) (env : Env) : M (List Data) := do
  let (finalInterval, keys) ← calculateInterval P timeSlot
  if finalInterval.isValid = false then return []
  else
    let start ← lifted (isoComponent finalInterval.startTime)
    let stop ← lifted (isoComponent finalInterval.endTime)
    let (pub, priv) ← keyPair P (P.space ++ [eKeyC, start, stop]) needRegenerate env
    let data ← lifted (createEKeyData P start stop pub)
    let ds ← lifted (createDKeys P start stop priv env.rnd 0 (sortedKeys keys))
    return data :: ds

/-! ### Histories -/

/-- A call. `restart` is the end of the process and a new object with the same file. -/
inductive Op where
  | addSchedule (n : String) (s : Schedule)
  | deleteSchedule (n : String)
  | renameSchedule (old new : String)
  | updateSchedule (n : String) (s : Schedule)
  | hasSchedule (n : String)
  | listAllScheduleNames
  | getSchedule (n : String)
  | getScheduleMembers (n : String)
  | addMember (n : String) (keyName : Name) (key : Bytes)
  | updateMemberSchedule (identity : Name) (n : String)
  | deleteMember (identity : Name)
  | hasMember (identity : Name)
  | listAllMembers
  | getMemberSchedule (identity : Name)
  | cleanEKeys
  | getGroupKey (timeSlot : ℚ) (needRegenerate : Bool) (env : Env)
  | restart

inductive Res where
  | none
  | error (e : GErr)
  | bool (b : Bool)
  | strings (l : List String)
  | string (s : String)
  | schedule (s : Schedule)
  | members (l : List (Name × Bytes))
  | names (l : List Name)
  | packets (l : List Data)

def M.res (m : M α) (f : α → Res) : St → Res × St := fun s =>
  match m s with
  | (.ok a, s') => (f a, s')
  | (.error e, s') => (.error e, s')

def call (P : Params) : Op → St → Res × St
  | .addSchedule n s => (Group.addSchedule n s).res fun _ => .none
  | .deleteSchedule n => (Group.deleteSchedule n).res fun _ => .none
  | .renameSchedule old new => (Group.renameSchedule old new).res fun _ => .none
  | .updateSchedule n s => (Group.updateSchedule n s).res fun _ => .none
  | .hasSchedule n => (Group.hasSchedule n).res .bool
  | .listAllScheduleNames => (Group.listAllScheduleNames P).res .strings
  | .getSchedule n => (Group.getSchedule n).res .schedule
  | .getScheduleMembers n => (Group.getScheduleMembers P n).res .members
  | .addMember n k key => (Group.addMember n k key).res fun _ => .none
  | .updateMemberSchedule i n => (Group.updateMemberSchedule i n).res fun _ => .none
  | .deleteMember i => (Group.deleteMember i).res fun _ => .none
  | .hasMember i => (Group.hasMember i).res .bool
  | .listAllMembers => (Group.listAllMembers P).res .names
  | .getMemberSchedule i => (Group.getMemberSchedule i).res .string
  | .cleanEKeys => Group.cleanEKeys.res fun _ => .none
  | .getGroupKey t r env => (Group.getGroupKey P t r env).res .packets
  | .restart => fun s => (.none, { s with privs := [] })

/-- The log is that of the call. -/
def step (P : Params) (op : Op) (s : St) : Res × St := call P op { s with log := [] }

def run (P : Params) : List Op → St → List Res × St
  | [], s => ([], s)
  | op :: ops, s =>
    let (r, s') := step P op s
    let (rs, s'') := run P ops s'
    (r :: rs, s'')

end PyNDN.Group
