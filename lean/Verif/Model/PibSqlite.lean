import Verif.Model.KeyChain
/-
Model of security/pib/pib_sqlite3.py: the tables with their triggers and foreign keys, the SQL statements, and the methods.

Simplifications.  The columns of the tables `identities`, `keys` and `certificates` are the same up to their names, and so are their
triggers, so that there is one model of a table; an identity has no parent, its `parent` is 0, and its `data` is empty.  Integers of SQLite do
not overflow.  SQLite does what it documents: a statement with its triggers and a following commit is done as a whole or not at all.  A BEFORE
UPDATE trigger here sets `is_default` to 0 also in the row that is to be updated, which has 0 already; the update is then done.  SQLite fails only
for a constraint.  Names and certificates are values.
-/
namespace PyNDN.PibSqlite
open KeyChain (identityOfCert keyOfCert checkCert)

/-! ### Tables -/

/-- A row of `identities`, `keys` or `certificates` (pib_sqlite3.py:44-49, 91-102, 149-160). -/
structure Row where
  id : Nat
  /-- identity_id, key_id -/
  parent : Nat
  /-- identity, key_name, certificate_name -/
  name : Bytes
  /-- key_bits, certificate_data -/
  data : Bytes
  isDefault : Bool
  deriving DecidableEq, Repr

abbrev Table := List Row

namespace Table

/-- The INTEGER PRIMARY KEY of a new row: one more than the largest, so that the number of a deleted row can be used again. -/
def nextId (t : Table) : Nat := t.foldl (fun m r => max m r.id) 0 + 1

/-- `SELECT ... WHERE name=?`. -/
def find (t : Table) (name : Bytes) : Option Row := List.find? (fun r => decide (r.name = name)) t

/-- `UPDATE t SET is_default=1 WHERE name=?` with the trigger BEFORE UPDATE (pib_sqlite3.py:81-88, 137-146, 195-204). -/
def setDefault (t : Table) (name : Bytes) : Table :=
  match t.find name with
  | none => t
  | some r =>
    let cleared : Table := if r.isDefault then t else t.map fun x => if x.parent = r.parent then { x with isDefault := false } else x
    cleared.map fun x => if x.name = name then { x with isDefault := true } else x

/-- `INSERT INTO t (parent, name, data)` with the trigger AFTER INSERT (pib_sqlite3.py:66-78, 121-134, 179-192) and the unique index
(pib_sqlite3.py:52-53, 105-106, 163-164); none for a violation of the index.  The trigger BEFORE INSERT does nothing, for `is_default` is 0. -/
def insert (t : Table) (parent : Nat) (name data : Bytes) : Option Table :=
  if t.any fun r => r.name = name then none
  else
    let t' : Table := t ++ [⟨t.nextId, parent, name, data, false⟩]
    if t'.any fun r => r.isDefault ∧ r.parent = parent then some t' else some (t'.setDefault name)

/-- `UPDATE t SET data=? WHERE name=?`. -/
def setData (t : Table) (name data : Bytes) : Table := t.map fun x => if x.name = name then { x with data := data } else x

/-- The rows that stay when those of the parents are deleted (ON DELETE CASCADE). -/
def cascade (t : Table) (deleted : Table) : Table := t.filter fun x => !(deleted.any fun r => r.id = x.parent)

end Table

/-- The database (pib_sqlite3.py:36-205). -/
structure DB where
  tpmInfo : List Bytes := []
  identities : Table := []
  keys : Table := []
  certs : Table := []
  deriving DecidableEq, Repr

/-! ### Statements -/

/-- The statements that write. -/
inductive Stmt where
  | insertTpm (locator : Bytes)
  | updateTpm (locator : Bytes)
  | insertIdentity (name : Bytes)
  | deleteIdentity (name : Bytes)
  | deleteIdentities
  | defaultIdentity (name : Bytes)
  | insertKey (identity name bits : Bytes)
  | updateKey (name bits : Bytes)
  | deleteKey (name : Bytes)
  | defaultKey (name : Bytes)
  | insertCert (key name data : Bytes)
  | updateCert (name data : Bytes)
  | deleteCert (name : Bytes)
  | defaultCert (name : Bytes)

/-- `DELETE FROM keys`, for the rows that match, with the cascade. -/
def DB.deleteKeys (db : DB) (p : Row → Bool) : DB :=
  { db with keys := db.keys.filter fun r => !p r, certs := db.certs.cascade (db.keys.filter p) }

/-- `DELETE FROM identities`, for the rows that match, with the cascade. -/
def DB.deleteIdentities (db : DB) (p : Row → Bool) : DB :=
  let db' := db.deleteKeys fun k => (db.identities.filter p).any fun r => r.id = k.parent
  { db' with identities := db.identities.filter fun r => !p r }

/-- A statement; none for sqlite3.IntegrityError. -/
def exec (db : DB) : Stmt → Option DB
  | .insertTpm l => some { db with tpmInfo := db.tpmInfo ++ [l] }
  | .updateTpm l => some { db with tpmInfo := db.tpmInfo.map fun _ => l }
  | .insertIdentity n => (db.identities.insert 0 n []).map fun t => { db with identities := t }
  | .deleteIdentity n => some (db.deleteIdentities fun r => r.name = n)
  | .deleteIdentities => some (db.deleteIdentities fun _ => true)
  | .defaultIdentity n => some { db with identities := db.identities.setDefault n }
  | .insertKey i k bits => match db.identities.find i with
    | none => none
    | some r => (db.keys.insert r.id k bits).map fun t => { db with keys := t }
  | .updateKey k bits => some { db with keys := db.keys.setData k bits }
  | .deleteKey k => some (db.deleteKeys fun r => r.name = k)
  | .defaultKey k => some { db with keys := db.keys.setDefault k }
  | .insertCert k c data => match db.keys.find k with
    | none => none
    | some r => (db.certs.insert r.id c data).map fun t => { db with certs := t }
  | .updateCert c data => some { db with certs := db.certs.setData c data }
  | .deleteCert c => some { db with certs := db.certs.filter fun r => !(r.name = c) }
  | .defaultCert c => some { db with certs := db.certs.setDefault c }

/-! ### Methods -/

/-- Pib.Error, PibImpl.Error, and the exceptions of decoding. -/
inductive PErr where
  | pib | impl | py (e : Err)
  deriving DecidableEq

/-- The database, and the databases that were committed by the call. -/
structure Conn where
  db : DB
  log : List DB := []

/-- A method. -/
def M (α : Type) : Type := Conn → Except PErr α × Conn

def M.pure (a : α) : M α := fun s => (.ok a, s)
def M.bind (m : M α) (f : α → M β) : M β := fun s =>
  match m s with
  | (.ok a, s') => f a s'
  | (.error e, s') => (.error e, s')
instance : Monad M where
  pure := M.pure
  bind := M.bind

def raise (e : PErr) : M α := fun s => (.error e, s)
/-- What a `SELECT` gives. -/
def select (f : DB → α) : M α := fun s => (.ok (f s.db), s)
/-- `cursor.execute` of a statement that writes, and `commit`; an exception of SQLite is turned into PibImpl.Error. -/
def write (q : Stmt) : M Unit := fun s =>
  match exec s.db q with
  | some db => (.ok (), ⟨db, s.log ++ [db]⟩)
  | none => (.error .impl, s)
/-- `wireDecode` of a name, in a `try` or not. -/
def decoded (e : Err → PErr) (b : Bytes) : M Name := match decodeName b with
  | .ok n => pure n
  | .error x => raise (e x)
/-- `for (encoding, ) in rows`, where an exception is turned into PibImpl.Error. -/
def decodedAll : List Row → M (List Name)
  | [] => pure []
  | r :: rs => do
    let n ← decoded (fun _ => .impl) r.name
    let ns ← decodedAll rs
    return if n ∈ ns then ns else n :: ns
/-- `CertificateV2.wireDecode` (certificate_v2.py:202-216). -/
def decodedCert (b : Bytes) : M Data := match decodeData {} b with
  | .ok (d, _, _) => match checkCert d with
    | .ok () => pure d
    | .error x => raise (.py x)
  | .error x => raise (.py x)

/-- `getTpmLocator` (pib_sqlite3.py:280-299). -/
def getTpmLocator : M Bytes := select fun db => db.tpmInfo.head?.getD []

/-- `setTpmLocator` (pib_sqlite3.py:256-278). -/
def setTpmLocator (l : Bytes) : M Unit := do
  let old ← getTpmLocator
  if old = [] then write (.insertTpm l) else write (.updateTpm l)

/-- `hasIdentity` (pib_sqlite3.py:303-322). -/
def hasIdentity (n : Name) : M Bool := select fun db => (db.identities.find (encodeName n)).isSome

/-- `_hasDefaultIdentity` (pib_sqlite3.py:900-916). -/
def hasDefaultIdentity : M Bool := select fun db => (db.identities.find? (·.isDefault)).isSome

/-- `setDefaultIdentity` (pib_sqlite3.py:400-427). -/
def setDefaultIdentity (n : Name) : M Unit := do
  if !(← hasIdentity n) then write (.insertIdentity (encodeName n))
  write (.defaultIdentity (encodeName n))

/-- `addIdentity` (pib_sqlite3.py:324-344). -/
def addIdentity (n : Name) : M Unit := do
  if !(← hasIdentity n) then write (.insertIdentity (encodeName n))
  if !(← hasDefaultIdentity) then setDefaultIdentity n

/-- `removeIdentity` (pib_sqlite3.py:346-362). -/
def removeIdentity (n : Name) : M Unit := write (.deleteIdentity (encodeName n))

/-- `clearIdentities` (pib_sqlite3.py:364-374). -/
def clearIdentities : M Unit := write .deleteIdentities

/-- `getIdentities` (pib_sqlite3.py:376-398). -/
def getIdentities : M (List Name) := do decodedAll (← select (·.identities))

/-- `getDefaultIdentity` (pib_sqlite3.py:429-454). -/
def getDefaultIdentity : M Name := do
  match ← select fun db => db.identities.find? (·.isDefault) with
  | some r => decoded .py r.name
  | none => raise .pib

/-- `hasKey` (pib_sqlite3.py:458-478). -/
def hasKey (k : Name) : M Bool := select fun db => (db.keys.find (encodeName k)).isSome

/-- `keys JOIN identities ON keys.identity_id=identities.id WHERE identities.identity=?` (pib_sqlite3.py:586-588). -/
def DB.keysOf (db : DB) (identity : Bytes) : Table :=
  db.keys.filter fun k => db.identities.any fun i => i.id = k.parent ∧ i.name = identity

/-- `certificates JOIN keys ON certificates.key_id=keys.id WHERE keys.key_name=?` (pib_sqlite3.py:798-800). -/
def DB.certsOf (db : DB) (key : Bytes) : Table :=
  db.certs.filter fun c => db.keys.any fun k => k.id = c.parent ∧ k.name = key

/-- `_hasDefaultKeyOfIdentity` (pib_sqlite3.py:918-939). -/
def hasDefaultKeyOfIdentity (n : Name) : M Bool := select fun db => ((db.keysOf (encodeName n)).find? (·.isDefault)).isSome

/-- `setDefaultKeyOfIdentity` (pib_sqlite3.py:601-621): the name of the identity is not used. -/
def setDefaultKeyOfIdentity (_n k : Name) : M Unit := do
  if !(← hasKey k) then raise .pib
  write (.defaultKey (encodeName k))

/-- `addKey` (pib_sqlite3.py:480-523). -/
def addKey (n k : Name) (bits : Bytes) : M Unit := do
  addIdentity n
  if !(← hasKey k) then write (.insertKey (encodeName n) (encodeName k) bits)
  else write (.updateKey (encodeName k) bits)
  if !(← hasDefaultKeyOfIdentity n) then setDefaultKeyOfIdentity n k

/-- `removeKey` (pib_sqlite3.py:525-540). -/
def removeKey (k : Name) : M Unit := write (.deleteKey (encodeName k))

/-- `getKeyBits` (pib_sqlite3.py:542-568). -/
def getKeyBits (k : Name) : M Bytes := do
  match ← select fun db => db.keys.find (encodeName k) with
  | some r => return r.data
  | none => raise .pib

/-- `getKeysOfIdentity` (pib_sqlite3.py:570-599). -/
def getKeysOfIdentity (n : Name) : M (List Name) := do decodedAll (← select fun db => db.keysOf (encodeName n))

/-- `getDefaultKeyOfIdentity` (pib_sqlite3.py:623-659). -/
def getDefaultKeyOfIdentity (n : Name) : M Name := do
  if !(← hasIdentity n) then raise .pib
  match ← select fun db => (db.keysOf (encodeName n)).find? (·.isDefault) with
  | some r => decoded .py r.name
  | none => raise .pib

/-- `hasCertificate` (pib_sqlite3.py:663-682). -/
def hasCertificate (c : Name) : M Bool := select fun db => (db.certs.find (encodeName c)).isSome

/-- `_hasDefaultCertificateOfKey` (pib_sqlite3.py:941-962). -/
def hasDefaultCertificateOfKey (k : Name) : M Bool := select fun db => ((db.certsOf (encodeName k)).find? (·.isDefault)).isSome

/-- `setDefaultCertificateOfKey` (pib_sqlite3.py:813-836): the name of the key is not used. -/
def setDefaultCertificateOfKey (_k c : Name) : M Unit := do
  if !(← hasCertificate c) then raise .pib
  write (.defaultCert (encodeName c))

/-- `wireEncode` of a certificate in a `try`. -/
def encodedCert (c : Data) : M Bytes := match encodeData c with
  | .ok (wire, _, _) => pure wire
  | .error _ => raise .impl

/-- `addCertificate` (pib_sqlite3.py:684-731) of a certificate that has a name of the right form.  A null content, which is None in Python,
raises. -/
def addCertificate (c : Data) : M Unit := do
  match c.content with
  | none => do
    addIdentity (identityOfCert c.name)
    raise .impl
  | some bits => addKey (identityOfCert c.name) (keyOfCert c.name) bits
  if !(← hasCertificate c.name) then
    let wire ← encodedCert c
    write (.insertCert (encodeName (keyOfCert c.name)) (encodeName c.name) wire)
  else
    let wire ← encodedCert c
    write (.updateCert (encodeName c.name) wire)
  if !(← hasDefaultCertificateOfKey (keyOfCert c.name)) then setDefaultCertificateOfKey (keyOfCert c.name) c.name

/-- `removeCertificate` (pib_sqlite3.py:733-748). -/
def removeCertificate (c : Name) : M Unit := write (.deleteCert (encodeName c))

/-- `getCertificate` (pib_sqlite3.py:750-779). -/
def getCertificate (c : Name) : M Data := do
  match ← select fun db => db.certs.find (encodeName c) with
  | some r => decodedCert r.data
  | none => raise .pib

/-- `getCertificatesOfKey` (pib_sqlite3.py:781-811). -/
def getCertificatesOfKey (k : Name) : M (List Name) := do decodedAll (← select fun db => db.certsOf (encodeName k))

/-- `getDefaultCertificateOfKey` (pib_sqlite3.py:838-869). -/
def getDefaultCertificateOfKey (k : Name) : M Data := do
  match ← select fun db => (db.certsOf (encodeName k)).find? (·.isDefault) with
  | some r => decodedCert r.data
  | none => raise .pib

/-! ### Histories -/

/-- A call. -/
inductive Op where
  | setTpmLocator (l : Bytes) | getTpmLocator
  | hasIdentity (n : Name) | addIdentity (n : Name) | removeIdentity (n : Name) | clearIdentities | getIdentities
  | setDefaultIdentity (n : Name) | getDefaultIdentity
  | hasKey (k : Name) | addKey (n k : Name) (bits : Bytes) | removeKey (k : Name) | getKeyBits (k : Name) | getKeysOfIdentity (n : Name)
  | setDefaultKeyOfIdentity (n k : Name) | getDefaultKeyOfIdentity (n : Name)
  | hasCertificate (c : Name) | addCertificate (c : Data) | removeCertificate (c : Name) | getCertificate (c : Name)
  | getCertificatesOfKey (k : Name) | setDefaultCertificateOfKey (k c : Name) | getDefaultCertificateOfKey (k : Name)

/-- What a call returns. -/
inductive Res where
  | none
  | bool (b : Bool)
  | bytes (b : Bytes)
  | name (n : Name)
  | names (ns : List Name)
  | cert (c : Data)
  | error (e : PErr)
  deriving DecidableEq

def toRes (m : M α) (f : α → Res) : Conn → Res × Conn := fun s =>
  match m s with
  | (.ok a, s') => (f a, s')
  | (.error e, s') => (.error e, s')

/-- A call, from a database: the result, the database after it, and the databases that were committed on the way. -/
def call : Op → Conn → Res × Conn
  | .setTpmLocator l => toRes (setTpmLocator l) fun _ => .none
  | .getTpmLocator => toRes getTpmLocator .bytes
  | .hasIdentity n => toRes (hasIdentity n) .bool
  | .addIdentity n => toRes (addIdentity n) fun _ => .none
  | .removeIdentity n => toRes (removeIdentity n) fun _ => .none
  | .clearIdentities => toRes clearIdentities fun _ => .none
  | .getIdentities => toRes getIdentities .names
  | .setDefaultIdentity n => toRes (setDefaultIdentity n) fun _ => .none
  | .getDefaultIdentity => toRes getDefaultIdentity .name
  | .hasKey k => toRes (hasKey k) .bool
  | .addKey n k bits => toRes (addKey n k bits) fun _ => .none
  | .removeKey k => toRes (removeKey k) fun _ => .none
  | .getKeyBits k => toRes (getKeyBits k) .bytes
  | .getKeysOfIdentity n => toRes (getKeysOfIdentity n) .names
  | .setDefaultKeyOfIdentity n k => toRes (setDefaultKeyOfIdentity n k) fun _ => .none
  | .getDefaultKeyOfIdentity n => toRes (getDefaultKeyOfIdentity n) .name
  | .hasCertificate c => toRes (hasCertificate c) .bool
  | .addCertificate c => toRes (addCertificate c) fun _ => .none
  | .removeCertificate c => toRes (removeCertificate c) fun _ => .none
  | .getCertificate c => toRes (getCertificate c) .cert
  | .getCertificatesOfKey k => toRes (getCertificatesOfKey k) .names
  | .setDefaultCertificateOfKey k c => toRes (setDefaultCertificateOfKey k c) fun _ => .none
  | .getDefaultCertificateOfKey k => toRes (getDefaultCertificateOfKey k) .cert

/-- The results of a history and the database after it.  There is nothing in the object but the connection, and opening a database again
changes nothing in it (pib_sqlite3.py:237-246), so that each call may as well be by a new process. -/
def run : DB → List Op → List Res × DB
  | db, [] => ([], db)
  | db, op :: ops =>
    let r := call op ⟨db, []⟩
    (r.1 :: (run r.2.db ops).1, (run r.2.db ops).2)

end PyNDN.PibSqlite
