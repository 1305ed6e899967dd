import Verif.Model.Certificate
import Verif.Model.ConfigPolicy
/-
Model of security/certificate/identity_certificate.py (`setName`) and of `prepareUnsignedIdentityCertificate` and `_generateCertificateForKey`
(security/identity/identity_manager.py:302-393, 676-704).  The public key is the argument of the first; that it is read from the storage is
modelled in Model/IdentityStorage.  The clock is a whole number of milliseconds.  A Python list that is None is the empty one.
-/
namespace PyNDN.IdentityCertificate
open ConfigPolicy Certificate

/-- SecurityException, RuntimeError, and what encoding a certificate or a number raises. -/
inductive Err where
  | security
  | runtime
  | index
  | cert (e : Certificate.Err)
  | wire (e : PyNDN.Err)
  deriving DecidableEq, Repr

/-- An `IdentityCertificate`: the name of the packet, `_publicKeyName` and the certificate. -/
structure IdCert where
  name : Name
  publicKeyName : Name
  cert : Cert
  deriving DecidableEq, Repr

/-- `setName` (identity_certificate.py:93-110), with `_isCorrectName` (51-77): the name of the public key. -/
def setName (n : Name) : Except Err Name :=
  if n.any isIdCert && n.any isKey then
    match publicKeyName n with
    | .ok k => .ok k
    | .error _ => .error .runtime
  else .error .security

/-- The components that `append("KEY")` and `append("ID-CERT")` add. -/
def keyC : Component := Component.generic [75, 69, 89]
def idCertC : Component := Component.generic [73, 68, 45, 67, 69, 82, 84]

/-- `Blob(str)` of an URI. -/
def uriBytes (s : List Char) : Bytes := (s.map (·.toNat)).flatMap Protobuf.utf8Encode

/-- 2.5.4.41. -/
def nameOid : OidValue := .oid [2, 5, 4, 41]

/-- Whether the last component is as a key ID has to be (identity_manager.py:341-346). -/
def isKeyId (c : Component) : Bool :=
  decide (¬ c.toEscapedString.length < 4) && (c.toEscapedString.take 4 == "ksk-".toList || c.toEscapedString.take 4 == "dsk-".toList)

/-- The prefix of the certificate name, before "KEY" (identity_manager.py:351-374); none if the hint does not fit. -/
def prefixFor (keyName signingIdentity : Name) : Option Name → Option Name
  | none => if signingIdentity.matches keyName then some signingIdentity else some keyName.dropLast
  | some hint => if hint.matches keyName && !hint.equals keyName then some hint else none

/-- The name of the certificate. -/
def certName (pre keyName : Name) (version : Component) : Name := pre ++ keyC :: keyName.drop pre.length ++ [idCertC, version]

/-- `prepareUnsignedIdentityCertificate` with the public key (identity_manager.py:338-393). -/
def prepare (keyName : Name) (publicKey : Bytes) (signingIdentity : Name) (notBefore notAfter : Int)
    (descriptions : List (OidValue × Bytes)) (certPrefix : Option Name) (now : Int) : Except Err (Option IdCert) :=
  match keyName.getLast? with
  | none => .ok none
  | some last =>
    if !isKeyId last then .ok none
    else match prefixFor keyName signingIdentity certPrefix with
      | none => .ok none
      | some pre =>
        match Component.fromVersion now with
        | .error e => .error (.wire e)
        | .ok version =>
          match setName (certName pre keyName version) with
          | .error e => .error e
          | .ok k =>
            let c : Cert := { Certificate.empty with
              notBefore := .time notBefore, notAfter := .time notAfter, publicKey := some publicKey,
              subjects := if descriptions.isEmpty then [(nameOid, uriBytes (Name.toUri keyName.dropLast))] else descriptions }
            match Certificate.encode c with
            | .error _ => .error .security
            | .ok c => .ok (some ⟨certName pre keyName version, k, c⟩)

/-- `_generateCertificateForKey` with the key from the storage (identity_manager.py:680-704); of an empty name, IndexError. -/
def generate (keyName : Name) (publicKey : Bytes) (now : Int) : Except Err IdCert :=
  match keyName.getLast? with
  | none => .error .index
  | some last =>
    match Component.fromVersion now with
    | .error e => .error (.wire e)
    | .ok version =>
      let n := keyName.dropLast ++ [keyC, last] ++ [idCertC, version]
      match setName n with
      | .error e => .error e
      | .ok k =>
        let c : Cert := { Certificate.empty with
          notBefore := .time now, notAfter := .time (now + 2 * 365 * 24 * 3600 * 1000), publicKey := some publicKey,
          subjects := [(nameOid, uriBytes (Name.toUri keyName))] }
        match Certificate.encode c with
        | .error e => .error (.cert e)
        | .ok c => .ok ⟨n, k, c⟩

end PyNDN.IdentityCertificate
