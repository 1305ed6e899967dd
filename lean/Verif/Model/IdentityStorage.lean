import Verif.Model.NameUri
/-
Model of the storages of identities, keys and certificates of security v1: `BasicIdentityStorage`
(security/identity/basic_identity_storage.py, an SQLite database), `MemoryIdentityStorage` (security/identity/memory_identity_storage.py)
and `IdentityStorage` (security/identity/identity_storage.py).

Simplification: the tables have the columns that the calls can see (not the key type, the issuer, the validity, whether a key is active,
and whether a certificate is valid); a certificate is its name, its public key with its name, and its encoding, and decoding what was
stored gives the certificate back; the database does not fail.
-/
namespace PyNDN.IdentityStorage
open PyNDN

abbrev Str := List Char

inductive Error where
  /-- `SecurityException`. -/
  | security
  /-- `IndexError`. -/
  | index
  /-- `RuntimeError`. -/
  | runtime
  /-- What parsing a URI raises. -/
  | uri
  deriving DecidableEq

/-- A v1 certificate. -/
structure Cert where
  name : Name
  keyName : Name
  keyDer : Bytes
  encoding : Bytes
  deriving DecidableEq

/-- The calls. -/
inductive Op where
  | doesIdentityExist (i : Name)
  | addIdentity (i : Name)
  | doesKeyExist (k : Name)
  | addKey (k : Name) (der : Bytes)
  | getKey (k : Name)
  | deletePublicKeyInfo (k : Name)
  | doesCertificateExist (n : Name)
  | addCertificate (c : Cert)
  | getCertificate (n : Name)
  | deleteCertificateInfo (n : Name)
  | deleteIdentityInfo (i : Name)
  | getDefaultIdentity
  | getDefaultKeyNameForIdentity (i : Name)
  | getDefaultCertificateNameForKey (k : Name)
  | getDefaultCertificateNameForIdentity (i : Name)
  | setDefaultIdentity (i : Name)
  | setDefaultKeyNameForIdentity (k : Name) (identityCheck : Option Name)
  | setDefaultCertificateNameForKey (k n : Name)

/-- What a call gives. -/
inductive Obs where
  | none
  | bool (b : Bool)
  | bytes (b : Bytes)
  | name (n : Name)
  | raised (e : Error)
  deriving DecidableEq

/-! ### BasicIdentityStorage -/

/-- A row of the table Identity (basic_identity_storage.py:46-53). -/
structure IdRow where
  uri : Str
  isDefault : Bool := false
  deriving DecidableEq
/-- A row of the table Key (basic_identity_storage.py:57-67). -/
structure KeyRow where
  identity : Str
  keyId : Str
  der : Bytes
  isDefault : Bool := false
  deriving DecidableEq
/-- A row of the table Certificate (basic_identity_storage.py:72-86). -/
structure CertRow where
  uri : Str
  identity : Str
  keyId : Str
  encoding : Bytes
  isDefault : Bool := false
  deriving DecidableEq

structure DB where
  ids : List IdRow := []
  keys : List KeyRow := []
  certs : List CertRow := []
  deriving DecidableEq

/-- `identityName.toUri()`. -/
def uriOf (n : Name) : Str := n.toUri

/-- `keyName[:-1].toUri()` and `keyName[-1].toEscapedString()`, or IndexError. -/
def columns (k : Name) : Except Error (Str × Str) :=
  match k.getLast? with
  | none => .error .index
  | some c => .ok (uriOf k.dropLast, c.toEscapedString)

/-- `Name(uri)` (basic_identity_storage.py:478, 531). -/
def parse (u : Str) : Obs :=
  match parseUri u with
  | .ok n => .name n
  | .error _ => .raised .uri

/-- `Name(identityName).append(keyId)`, where the text is not unescaped (basic_identity_storage.py:503). -/
def appendText (i : Name) (keyId : Str) : Name := i ++ [⟨.generic, keyId.map fun c => UInt8.ofNat c.toNat⟩]

/-- `doesIdentityExist` (basic_identity_storage.py:143-162). -/
def DB.hasIdentity (db : DB) (u : Str) : Bool := db.ids.any fun r => r.uri = u
/-- `doesKeyExist` (basic_identity_storage.py:189-210). -/
def DB.hasKey (db : DB) (i k : Str) : Bool := db.keys.any fun r => r.identity = i ∧ r.keyId = k
/-- `doesCertificateExist` (basic_identity_storage.py:312-330). -/
def DB.hasCert (db : DB) (u : Str) : Bool := db.certs.any fun r => r.uri = u

/-- `addIdentity` (basic_identity_storage.py:164-178). -/
def DB.addIdentity (db : DB) (u : Str) : DB := if db.hasIdentity u then db else { db with ids := db.ids ++ [{ uri := u }] }

/-- `addKey` with a name that is not empty (basic_identity_storage.py:226-242). -/
def DB.addKey (db : DB) (i k : Str) (der : Bytes) : DB :=
  if db.hasKey i k then db
  else
    let db := db.addIdentity i
    { db with keys := db.keys ++ [{ identity := i, keyId := k, der := der }] }

/-- `getDefaultKeyNameForIdentity` (basic_identity_storage.py:484-507). -/
def DB.defaultKey (db : DB) (i : Name) : Except Error Name :=
  match db.keys.find? fun r => r.identity = uriOf i ∧ r.isDefault with
  | some r => .ok (appendText i r.keyId)
  | none => .error .security

/-- `getDefaultCertificateNameForKey` (basic_identity_storage.py:509-535). -/
def DB.defaultCert (db : DB) (k : Name) : Obs :=
  match columns k with
  | .error e => .raised e
  | .ok (i, id) =>
    match db.certs.find? fun r => r.identity = i ∧ r.keyId = id ∧ r.isDefault with
    | some r => parse r.uri
    | none => .raised .security

/-- The calls of `BasicIdentityStorage`. -/
def DB.call (db : DB) : Op → DB × Obs
  | .doesIdentityExist i => (db, .bool (db.hasIdentity (uriOf i)))
  | .addIdentity i => (db.addIdentity (uriOf i), .none)
  | .doesKeyExist k =>
    match columns k with
    | .error e => (db, .raised e)
    | .ok (i, id) => (db, .bool (db.hasKey i id))
  | .addKey k der =>
    match columns k with
    | .error _ => (db, .none)
    | .ok (i, id) => (db.addKey i id der, .none)
  | .getKey k =>
    -- basic_identity_storage.py:244-271
    match columns k with
    | .error _ => (db, .raised .security)
    | .ok (i, id) =>
      match db.keys.find? fun r => r.identity = i ∧ r.keyId = id with
      | some r => (db, .bytes r.der)
      | none => (db, .raised .security)
  | .deletePublicKeyInfo k =>
    -- basic_identity_storage.py:291-309
    match columns k with
    | .error _ => (db, .none)
    | .ok (i, id) =>
      ({ db with certs := db.certs.filter fun r => ¬ (r.identity = i ∧ r.keyId = id),
                 keys := db.keys.filter fun r => ¬ (r.identity = i ∧ r.keyId = id) }, .none)
  | .doesCertificateExist n => (db, .bool (db.hasCert (uriOf n)))
  | .addCertificate c =>
    -- basic_identity_storage.py:332-369; an empty key name makes addKey do nothing, and get(-1) raises IndexError
    match columns c.keyName with
    | .error e => if db.hasCert (uriOf c.name) then (db, .none) else (db, .raised e)
    | .ok (i, id) =>
      let db := db.addKey i id c.keyDer
      if db.hasCert (uriOf c.name) then (db, .none)
      else ({ db with certs := db.certs ++ [{ uri := uriOf c.name, identity := i, keyId := id, encoding := c.encoding }] }, .none)
  | .getCertificate n =>
    -- basic_identity_storage.py:371-399
    match db.certs.find? fun r => r.uri = uriOf n with
    | some r => (db, .bytes r.encoding)
    | none => (db, .raised .security)
  | .deleteCertificateInfo n =>
    -- basic_identity_storage.py:422-435
    if n = [] then (db, .none) else ({ db with certs := db.certs.filter fun r => r.uri ≠ uriOf n }, .none)
  | .deleteIdentityInfo i =>
    -- basic_identity_storage.py:437-456
    ({ ids := db.ids.filter fun r => r.uri ≠ uriOf i, keys := db.keys.filter fun r => r.identity ≠ uriOf i,
       certs := db.certs.filter fun r => r.identity ≠ uriOf i }, .none)
  | .getDefaultIdentity =>
    -- basic_identity_storage.py:462-482
    match db.ids.find? fun r => r.isDefault with
    | some r => (db, parse r.uri)
    | none => (db, .raised .security)
  | .getDefaultKeyNameForIdentity i =>
    match db.defaultKey i with
    | .ok n => (db, .name n)
    | .error e => (db, .raised e)
  | .getDefaultCertificateNameForKey k => (db, db.defaultCert k)
  | .getDefaultCertificateNameForIdentity i =>
    -- identity_storage.py:233-244
    match db.defaultKey i with
    | .ok k => (db, db.defaultCert k)
    | .error e => (db, .raised e)
  | .setDefaultIdentity i =>
    -- basic_identity_storage.py:602-619
    ({ db with ids := (db.ids.map fun r => { r with isDefault := false }).map fun r =>
        if r.uri = uriOf i then { r with isDefault := true } else r }, .none)
  | .setDefaultKeyNameForIdentity k check =>
    -- basic_identity_storage.py:621-653
    match columns k with
    | .error e => (db, .raised e)
    | .ok (i, id) =>
      if check.any fun n => !n.isEmpty && !n.equals k.dropLast then (db, .raised .security)
      else
        ({ db with keys := (db.keys.map fun r => if r.identity = i then { r with isDefault := false } else r).map fun r =>
            if r.identity = i ∧ r.keyId = id then { r with isDefault := true } else r }, .none)
  | .setDefaultCertificateNameForKey k n =>
    -- basic_identity_storage.py:655-678
    match columns k with
    | .error e => (db, .raised e)
    | .ok (i, id) =>
      ({ db with certs := (db.certs.map fun r => if r.identity = i ∧ r.keyId = id then { r with isDefault := false } else r).map fun r =>
          if r.identity = i ∧ r.keyId = id ∧ r.uri = uriOf n then { r with isDefault := true } else r }, .none)

/-- The answers to calls, and the database after them. -/
def DB.run (db : DB) : List Op → List Obs × DB
  | [] => ([], db)
  | o :: os => let r := (db.call o).1.run os; ((db.call o).2 :: r.1, r.2)

/-! ### MemoryIdentityStorage -/

/-- `MemoryIdentityStorage` (memory_identity_storage.py:36-47): association lists for the dictionaries. -/
structure Mem where
  ids : List (Str × Option Name) := []
  default : Str := []
  keys : List (Str × Bytes × Option Name) := []
  certs : List (Str × Bytes) := []
  deriving DecidableEq

/-- `addIdentity` (memory_identity_storage.py:59-69). -/
def Mem.addIdentity (m : Mem) (u : Str) : Mem := if m.ids.any fun r => r.1 = u then m else { m with ids := m.ids ++ [(u, none)] }

/-- `addKey` (memory_identity_storage.py:91-112). -/
def Mem.addKey (m : Mem) (k : Name) (der : Bytes) : Mem :=
  if k = [] then m
  else if m.keys.any fun r => r.1 = uriOf k then m
  else
    let m := m.addIdentity (uriOf k.dropLast)
    { m with keys := m.keys ++ [(uriOf k, der, none)] }

/-- `getDefaultKeyNameForIdentity` (memory_identity_storage.py:239-256). -/
def Mem.defaultKey (m : Mem) (i : Name) : Except Error Name :=
  match m.ids.find? fun r => r.1 = uriOf i with
  | some (_, some k) => .ok k
  | _ => .error .security

/-- `getDefaultCertificateNameForKey` (memory_identity_storage.py:258-276). -/
def Mem.defaultCert (m : Mem) (k : Name) : Obs :=
  match m.keys.find? fun r => r.1 = uriOf k with
  | some (_, _, some n) => .name n
  | _ => .raised .security

/-- The calls of `MemoryIdentityStorage`; the calls that delete raise RuntimeError (identity_storage.py:141-206). -/
def Mem.call (m : Mem) : Op → Mem × Obs
  | .doesIdentityExist i => (m, .bool (m.ids.any fun r => r.1 = uriOf i))
  | .addIdentity i => (m.addIdentity (uriOf i), .none)
  | .doesKeyExist k => (m, .bool (m.keys.any fun r => r.1 = uriOf k))
  | .addKey k der => (m.addKey k der, .none)
  | .getKey k =>
    -- memory_identity_storage.py:114-133
    if k = [] then (m, .raised .security)
    else
      match m.keys.find? fun r => r.1 = uriOf k with
      | some r => (m, .bytes r.2.1)
      | none => (m, .raised .security)
  | .doesCertificateExist n => (m, .bool (m.certs.any fun r => r.1 = uriOf n))
  | .addCertificate c =>
    -- memory_identity_storage.py:165-186
    let m := m.addKey c.keyName c.keyDer
    if m.certs.any fun r => r.1 = uriOf c.name then (m, .none) else ({ m with certs := m.certs ++ [(uriOf c.name, c.encoding)] }, .none)
  | .getCertificate n =>
    -- memory_identity_storage.py:188-209
    match m.certs.find? fun r => r.1 = uriOf n with
    | some r => (m, .bytes r.2)
    | none => (m, .raised .security)
  | .deletePublicKeyInfo _ => (m, .raised .runtime)
  | .deleteCertificateInfo _ => (m, .raised .runtime)
  | .deleteIdentityInfo _ => (m, .raised .runtime)
  | .getDefaultIdentity =>
    -- memory_identity_storage.py:225-237
    if m.default = [] then (m, .raised .security) else (m, parse m.default)
  | .getDefaultKeyNameForIdentity i =>
    match m.defaultKey i with
    | .ok n => (m, .name n)
    | .error e => (m, .raised e)
  | .getDefaultCertificateNameForKey k => (m, m.defaultCert k)
  | .getDefaultCertificateNameForIdentity i =>
    match m.defaultKey i with
    | .ok k => (m, m.defaultCert k)
    | .error e => (m, .raised e)
  | .setDefaultIdentity i =>
    -- memory_identity_storage.py:278-290
    if m.ids.any fun r => r.1 = uriOf i then ({ m with default := uriOf i }, .none) else ({ m with default := [] }, .none)
  | .setDefaultKeyNameForIdentity k check =>
    -- memory_identity_storage.py:292-311
    if check.any fun n => !n.isEmpty && !n.equals k.dropLast then (m, .raised .security)
    else ({ m with ids := m.ids.map fun r => if r.1 = uriOf k.dropLast then (r.1, some k) else r }, .none)
  | .setDefaultCertificateNameForKey k n =>
    -- memory_identity_storage.py:313-324
    ({ m with keys := m.keys.map fun r => if r.1 = uriOf k then (r.1, r.2.1, some n) else r }, .none)

/-- The answers to calls, and the storage after them. -/
def Mem.run (m : Mem) : List Op → List Obs × Mem
  | [] => ([], m)
  | o :: os => let r := (m.call o).1.run os; ((m.call o).2 :: r.1, r.2)

/-! ### New key names -/

/-- `getNewKeyName` (identity_storage.py:61-87): a storage with its last timestamp, the time in milliseconds, and whether a key exists. -/
def getNewKeyName (last nowMs : Nat) (i : Name) (useKsk : Bool) (hasKey : Name → Bool) : Nat × Except Error Name :=
  let timestamp := max (nowMs / 1000) (last + 1)
  let keyId := (if useKsk then "ksk-" else "dsk-").toList ++ strDec timestamp
  let keyName := appendText i keyId
  (timestamp, if hasKey keyName then .error .security else .ok keyName)

/-- A call of `getNewKeyName` in a history of a storage. -/
structure NewKey where
  nowMs : Nat
  identity : Name
  useKsk : Bool
  hasKey : Name → Bool

/-- The key names that calls give. -/
def newKeys (last : Nat) : List NewKey → List (Except Error Name)
  | [] => []
  | c :: cs =>
    let r := getNewKeyName last c.nowMs c.identity c.useKsk c.hasKey
    r.2 :: newKeys r.1 cs

end PyNDN.IdentityStorage
