import Verif.Model.PibSqlite
import Verif.Spec.Name
import Verif.Spec.Packet
/-
Specification of a PIB by maps from names (pib_impl.py), independently of tables, row numbers and triggers.
-/
namespace PyNDN.Spec.PibSqlite
open PyNDN PibSqlite

/-- The name without its last two components: the identity of a key, the key of a certificate. -/
def up (n : Name) : Name := n.take (n.length - 2)

def upd [DecidableEq α] (f : α → β) (a : α) (b : β) : α → β := fun x => if x = a then b else f x

/-- A PIB. -/
structure Pib where
  locator : Bytes := []
  identity : Name → Bool := fun _ => false
  default : Option Name := none
  key : Name → Option Bytes := fun _ => none
  /-- The default key of an identity. -/
  defaultKey : Name → Option Name := fun _ => none
  cert : Name → Option Data := fun _ => none
  /-- The default certificate of a key. -/
  defaultCert : Name → Option Name := fun _ => none

namespace Pib

/-- "If no default identity has been set, set the added identity as the default." -/
def addIdentity (K : Pib) (n : Name) : Pib := { K with identity := upd K.identity n true, default := K.default <|> some n }

def putKey (K : Pib) (k : Name) (bits : Bytes) : Pib := { K with key := upd K.key k (some bits) }

/-- "If no default key for the identity has been set, then set the added key as the default for the identity." -/
def addKey (K : Pib) (n k : Name) (bits : Bytes) : Pib :=
  { (K.addIdentity n).putKey k bits with defaultKey := upd K.defaultKey n (K.defaultKey n <|> some k) }

def putCert (K : Pib) (c : Data) : Pib := { K with cert := upd K.cert c.name (some c) }

/-- "If no default certificate for the key has been set, then set the added certificate as the default for the key." -/
def addCert (K : Pib) (c : Data) : Pib :=
  let k := up c.name
  { (K.addKey (up k) k (c.content.getD [])).putCert c with defaultCert := upd K.defaultCert k (K.defaultCert k <|> some c.name) }

/-- The identity with its keys and their certificates. -/
def removeIdentity (K : Pib) (n : Name) : Pib :=
  { K with
    identity := upd K.identity n false
    default := if K.default = some n then none else K.default
    key := fun k => if up k = n then none else K.key k
    defaultKey := upd K.defaultKey n none
    cert := fun c => if up (up c) = n then none else K.cert c
    defaultCert := fun k => if up k = n then none else K.defaultCert k }

/-- The key with its certificates. -/
def removeKey (K : Pib) (k : Name) : Pib :=
  { K with
    key := upd K.key k none
    defaultKey := fun n => if K.defaultKey n = some k then none else K.defaultKey n
    cert := fun c => if up c = k then none else K.cert c
    defaultCert := upd K.defaultCert k none }

def removeCert (K : Pib) (c : Name) : Pib :=
  { K with
    cert := upd K.cert c none
    defaultCert := fun k => if K.defaultCert k = some c then none else K.defaultCert k }

end Pib

/-- The PIB after a call. -/
def next (K : Pib) : Op → Pib
  | .setTpmLocator l => { K with locator := l }
  | .addIdentity n => K.addIdentity n
  | .removeIdentity n => K.removeIdentity n
  | .clearIdentities => { locator := K.locator }
  | .setDefaultIdentity n => { K with identity := upd K.identity n true, default := some n }
  | .addKey n k bits => K.addKey n k bits
  | .removeKey k => K.removeKey k
  | .setDefaultKeyOfIdentity n k => if (K.key k).isSome then { K with defaultKey := upd K.defaultKey n (some k) } else K
  | .addCertificate c => K.addCert c
  | .removeCertificate c => K.removeCert c
  | .setDefaultCertificateOfKey k c => if (K.cert c).isSome then { K with defaultCert := upd K.defaultCert k (some c) } else K
  | _ => K

/-- A set of names. -/
def Names (p : Name → Prop) (r : Res) : Prop := ∃ l, r = .names l ∧ l.Nodup ∧ ∀ n, n ∈ l ↔ p n

def orError (r : Option Res) : Res := r.getD (.error .pib)

def Cert (c : Option Data) (r : Res) : Prop := match c with
  | none => r = .error .pib
  | some d => ∃ d', r = .cert d' ∧ SameData d d'

/-- What a call gives. -/
def Gives (K : Pib) (r : Res) : Op → Prop
  | .getTpmLocator => r = .bytes K.locator
  | .hasIdentity n => r = .bool (K.identity n)
  | .getIdentities => Names (fun n => K.identity n = true) r
  | .getDefaultIdentity => r = orError (K.default.map .name)
  | .hasKey k => r = .bool (K.key k).isSome
  | .getKeyBits k => r = orError ((K.key k).map .bytes)
  | .getKeysOfIdentity n => Names (fun k => (K.key k).isSome = true ∧ up k = n) r
  | .setDefaultKeyOfIdentity _ k => r = if (K.key k).isSome then .none else .error .pib
  | .getDefaultKeyOfIdentity n => r = orError ((K.defaultKey n).map .name)
  | .hasCertificate c => r = .bool (K.cert c).isSome
  | .getCertificate c => Cert (K.cert c) r
  | .getCertificatesOfKey k => Names (fun c => (K.cert c).isSome = true ∧ up c = k) r
  | .setDefaultCertificateOfKey _ c => r = if (K.cert c).isSome then .none else .error .pib
  | .getDefaultCertificateOfKey k => Cert ((K.defaultCert k).bind K.cert) r
  | _ => r = .none

/-- What the calls of a history give. -/
def Agree : Pib → List Op → List Res → Prop
  | _, [], rs => rs = []
  | K, op :: ops, rs => ∃ r rest, rs = r :: rest ∧ Gives K r op ∧ Agree (next K op) ops rest

def after : Pib → List Op → Pib
  | K, [] => K
  | K, op :: ops => after (next K op) ops

/-- The PIB that a crash in a call can leave: parts of what the call does, in order. -/
def midway (K : Pib) : Op → List Pib
  | .setDefaultIdentity n => [K, K.addIdentity n, next K (.setDefaultIdentity n)]
  | .addKey n k bits => [K, K.addIdentity n, (K.addIdentity n).putKey k bits, K.addKey n k bits]
  | .addCertificate c =>
    let k := up c.name
    let K1 := K.addKey (up k) k (c.content.getD [])
    [K, K.addIdentity (up k), (K.addIdentity (up k)).putKey k (c.content.getD []), K1, K1.putCert c, K.addCert c]
  | op => [K, next K op]

/-! ### Calls -/

/-- The name has a wire encoding that can be decoded. -/
def NameOk (n : Name) : Prop := CanonicalName n ∧ (flat (nameFields n)).length < 2 ^ 64

/-- The certificate has the format of a certificate and can be encoded. -/
def CertOk (c : Data) : Prop :=
  DataOk c ∧ NameOk c.name ∧ KeyChain.checkCert c = .ok () ∧ ∃ wire b e, encodeData c = .ok (wire, b, e) ∧ wire.length < 2 ^ 64

/-- The names in the call can be encoded, the name of a key is made from that of the identity, the name of a certificate from that of the key,
and the TPM locator is not empty. -/
def Fine : Op → Prop
  | .setTpmLocator l => l ≠ []
  | .hasIdentity n => NameOk n
  | .addIdentity n => NameOk n
  | .removeIdentity n => NameOk n
  | .setDefaultIdentity n => NameOk n
  | .hasKey k => NameOk k
  | .addKey n k _ => NameOk k ∧ ∃ id, k = n ++ [Validator.keyComponent, id]
  | .removeKey k => NameOk k
  | .getKeyBits k => NameOk k
  | .getKeysOfIdentity n => NameOk n
  | .setDefaultKeyOfIdentity n k => NameOk k ∧ ∃ id, k = n ++ [Validator.keyComponent, id]
  | .getDefaultKeyOfIdentity n => NameOk n
  | .hasCertificate c => NameOk c
  | .addCertificate c => CertOk c
  | .removeCertificate c => NameOk c
  | .getCertificate c => NameOk c
  | .getCertificatesOfKey k => NameOk k
  | .setDefaultCertificateOfKey k c => NameOk c ∧ ∃ issuer version, c = k ++ [issuer, version]
  | .getDefaultCertificateOfKey k => NameOk k
  | _ => True

/-! ### Integrity of the tables -/

def TableOk (t : Table) : Prop :=
  (t.map (·.id)).Nodup ∧ (t.map (·.name)).Nodup ∧ ∀ r ∈ t, ∀ s ∈ t, r.isDefault → s.isDefault → r.parent = s.parent → r = s

/-- Row numbers and names are unique, each group of rows has at most one default, and each key and each certificate refers to a row. -/
def Integrity (db : DB) : Prop :=
  TableOk db.identities ∧ TableOk db.keys ∧ TableOk db.certs ∧ (∀ i ∈ db.identities, i.parent = 0) ∧
  (∀ k ∈ db.keys, ∃ i ∈ db.identities, i.id = k.parent) ∧ ∀ c ∈ db.certs, ∃ k ∈ db.keys, k.id = c.parent

end PyNDN.Spec.PibSqlite
