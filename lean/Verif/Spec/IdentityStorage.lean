import Verif.Model.IdentityStorage
/-
Specification of a storage of identities, keys and certificates: what is known about each name.  From the model come the types of the
calls and answers.
-/
namespace PyNDN.Spec.IdentityStorage
open _root_.PyNDN
open _root_.PyNDN.IdentityStorage (Op Obs Cert)

/-- What is known. -/
structure Known where
  identity : Name → Bool := fun _ => false
  /-- The public key with a name. -/
  key : Name → Option Bytes := fun _ => none
  /-- The name of the key and the encoding of the certificate with a name. -/
  cert : Name → Option (Name × Bytes) := fun _ => none
  defaultIdentity : Option Name := none
  /-- The default key of an identity. -/
  defaultKey : Name → Option Name := fun _ => none
  /-- The default certificate of a key. -/
  defaultCert : Name → Option Name := fun _ => none

/-- A key is only added if there is none with the name; its identity is the name without the last component. -/
def addKey (K : Known) (k : Name) (der : Bytes) : Known :=
  if k = [] ∨ (K.key k).isSome then K
  else { K with identity := fun i => i = k.dropLast || K.identity i, key := fun n => if n = k then some der else K.key n }

/-- The check of the identity for a default key. -/
def mismatch (k : Name) (check : Option Name) : Prop := ∃ i, check = some i ∧ i ≠ [] ∧ i ≠ k.dropLast

open Classical in
/-- What is known after a call. -/
noncomputable def after (K : Known) : Op → Known
  | .addIdentity i => { K with identity := fun n => n = i || K.identity n }
  | .addKey k der => addKey K k der
  | .addCertificate c =>
    let K := addKey K c.keyName c.keyDer
    if (K.cert c.name).isSome then K else { K with cert := fun n => if n = c.name then some (c.keyName, c.encoding) else K.cert n }
  | .deletePublicKeyInfo k =>
    { K with key := fun n => if n = k then none else K.key n,
             cert := fun n => (K.cert n).filter fun x => x.1 ≠ k,
             defaultKey := fun i => (K.defaultKey i).filter fun n => n ≠ k,
             defaultCert := fun n => if n = k then none else K.defaultCert n }
  | .deleteCertificateInfo n =>
    if n = [] then K
    else { K with cert := fun m => if m = n then none else K.cert m, defaultCert := fun k => (K.defaultCert k).filter fun m => m ≠ n }
  | .deleteIdentityInfo i =>
    { identity := fun n => n ≠ i && K.identity n,
      key := fun n => if n ≠ [] ∧ n.dropLast = i then none else K.key n,
      cert := fun n => (K.cert n).filter fun x => x.1.dropLast ≠ i,
      defaultIdentity := K.defaultIdentity.filter fun n => n ≠ i,
      defaultKey := fun n => if n = i then none else K.defaultKey n,
      defaultCert := fun k => if k.dropLast = i then none else K.defaultCert k }
  | .setDefaultIdentity i => { K with defaultIdentity := if K.identity i then some i else none }
  | .setDefaultKeyNameForIdentity k check =>
    if mismatch k check then K
    else { K with defaultKey := fun i => if i = k.dropLast then (if (K.key k).isSome then some k else none) else K.defaultKey i }
  | .setDefaultCertificateNameForKey k n =>
    { K with defaultCert := fun m => if m = k then (if (K.cert n).map Prod.fst = some k then some n else none) else K.defaultCert m }
  | _ => K

/-- A name, or SecurityException if there is none. -/
def nameOr : Option Name → Obs
  | some n => .name n
  | none => .raised .security

/-- Bytes, or SecurityException if there are none. -/
def bytesOr : Option Bytes → Obs
  | some b => .bytes b
  | none => .raised .security

open Classical in
/-- What a call should give. -/
noncomputable def answer (K : Known) : Op → Obs
  | .doesIdentityExist i => .bool (K.identity i)
  | .doesKeyExist k => .bool (K.key k).isSome
  | .getKey k => bytesOr (K.key k)
  | .doesCertificateExist n => .bool (K.cert n).isSome
  | .getCertificate n => bytesOr ((K.cert n).map Prod.snd)
  | .getDefaultIdentity => nameOr K.defaultIdentity
  | .getDefaultKeyNameForIdentity i => nameOr (K.defaultKey i)
  | .getDefaultCertificateNameForKey k => nameOr (K.defaultCert k)
  | .getDefaultCertificateNameForIdentity i => nameOr ((K.defaultKey i).bind K.defaultCert)
  | .setDefaultKeyNameForIdentity k check => if mismatch k check then .raised .security else .none
  | _ => .none

/-- What calls should give. -/
noncomputable def answers (K : Known) : List Op → List Obs
  | [] => []
  | o :: os => answer K o :: answers (after K o) os

/-- A name whose components are generic. -/
def Generic (n : Name) : Prop := ∀ c ∈ n, c.type = .generic

/-- The name of a key: not empty, and the text of the last component has no escapes. -/
def KeyName (k : Name) : Prop :=
  Generic k ∧ ∃ c, k.getLast? = some c ∧ c.value = c.toEscapedString.map fun x => UInt8.ofNat x.toNat

/-- The names in a call are of this kind. -/
def Fine : Op → Prop
  | .doesIdentityExist i | .addIdentity i | .deleteIdentityInfo i | .getDefaultKeyNameForIdentity i
  | .getDefaultCertificateNameForIdentity i | .setDefaultIdentity i => Generic i
  | .doesKeyExist k | .addKey k _ | .getKey k | .deletePublicKeyInfo k | .getDefaultCertificateNameForKey k => KeyName k
  | .doesCertificateExist n | .getCertificate n | .deleteCertificateInfo n => Generic n
  | .addCertificate c => Generic c.name ∧ KeyName c.keyName
  | .getDefaultIdentity => True
  | .setDefaultKeyNameForIdentity k _ => KeyName k
  | .setDefaultCertificateNameForKey k n => KeyName k ∧ Generic n

open Classical in
/-- Nothing is deleted, and what is made a default key or certificate is known. -/
def Simple (K : Known) : List Op → Prop
  | [] => True
  | o :: os => (match o with
      | .deletePublicKeyInfo _ | .deleteCertificateInfo _ | .deleteIdentityInfo _ => False
      | .setDefaultKeyNameForIdentity k check => mismatch k check ∨ (K.key k).isSome = true
      | .setDefaultCertificateNameForKey k n => (K.cert n).map Prod.fst = some k
      | _ => True) ∧ Simple (after K o) os

end PyNDN.Spec.IdentityStorage
