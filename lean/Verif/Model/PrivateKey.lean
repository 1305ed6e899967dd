import Verif.Model.Der
import Verif.Model.Nac
/-
Model of the encodings in security/tpm/tpm_private_key.py, and of `_doExportKey` and `_doImportKey` in
security/tpm/tpm_back_end_memory.py.  A private key of the `cryptography` package is a number.
-/
namespace PyNDN.PrivateKey
open Der (Node Val parse getSequence nth)

inductive KeyType where
  | rsa | ec | other
  deriving DecidableEq, Repr

/-- The exceptions: TpmPrivateKey.Error, TypeError, IndexError and what the `cryptography` package raises. -/
inductive Err where
  | tpm | type | index | library
  deriving DecidableEq, Repr

/-- What is not modelled, with none for an exception: `load_der_private_key`; `private_bytes` with PKCS8 and NoEncryption;
`PBKDF2HMAC` with SHA1 and 24 bytes for the salt, the iterations and the password; Triple DES in CBC mode with the derived key and the initial
vector.  The salt, the iterations, the vector and the encrypted key can be any values of `toVal`, also such that `Blob` raises. -/
structure Lib where
  load : Bytes → Option Nat
  pkcs8 : Nat → Bytes
  pbkdf2 : Val → Val → Bytes → Option Bytes
  encrypt : Bytes → Bytes → Bytes → Option Bytes
  decrypt : Bytes → Val → Val → Option Bytes

/-- RSA_ENCRYPTION_OID (tpm_private_key.py:552). -/
def rsaOid : List Nat := [1, 2, 840, 113549, 1, 1, 1]
/-- EC_ENCRYPTION_OID (tpm_private_key.py:553). -/
def ecOid : List Nat := [1, 2, 840, 10045, 2, 1]
/-- PBES2_OID (tpm_private_key.py:554). -/
def pbes2Oid : List Nat := [1, 2, 840, 113549, 1, 5, 13]
/-- PBKDF2_OID (tpm_private_key.py:555). -/
def pbkdf2Oid : List Nat := [1, 2, 840, 113549, 1, 5, 12]
/-- DES_EDE3_CBC_OID (tpm_private_key.py:556). -/
def desOid : List Nat := [1, 2, 840, 113549, 3, 7]

/-- A loaded key: `_privateKey` and `_keyType` (tpm_private_key.py:51-53). -/
structure Key where
  key : Nat
  type : KeyType
  deriving DecidableEq, Repr

/-- `isinstance(node, DerInteger)`. -/
def isInteger : Node → Bool
  | .leaf t _ _ => t = 2
  | .seq _ _ _ _ => false

/-- The check for the version and 8 integers (tpm_private_key.py:80-102); the exceptions are in the order of evaluation. -/
def detectPkcs1 (encoding : Bytes) : Except Der.Err KeyType := do
  let node ← parse encoding
  let cs ← node.getChildren
  if cs.length ≠ 9 then return .ec
  match cs with
  | [] => return .ec
  | v :: rest =>
    if ¬ isInteger v then return .ec
    if (← v.toVal) ≠ .int 0 then return .ec
    if rest.all isInteger then return .rsa else return .ec

/-- The end of `loadPkcs1` and of `loadPkcs8` (tpm_private_key.py:104-112, 147-155).  The object is changed only if nothing is raised. -/
def finish (L : Lib) (encoding : Bytes) (type : KeyType) : Except Err Key :=
  if type = .ec ∨ type = .rsa then match L.load encoding with
    | some k => .ok ⟨k, type⟩
    | none => .error .library
  else .error .tpm

/-- `loadPkcs1` (tpm_private_key.py:65-112).  By C71_safe_partial, what `parse` raises is DerDecodingException or IndexError. -/
def loadPkcs1 (L : Lib) (encoding : Bytes) (type : Option KeyType) : Except Err Key :=
  match type with
  | some t => finish L encoding t
  | none => match detectPkcs1 encoding with
    | .ok t => finish L encoding t
    | .error .decoding => finish L encoding .ec
    | .error _ => .error .index

/-- The algorithm of the PKCS #8 encoding (tpm_private_key.py:130-135). -/
def pkcs8Oid (encoding : Bytes) : Except Der.Err Val := do
  let node ← parse encoding
  let cs ← node.getChildren
  let algorithm ← getSequence cs 1
  let ids ← algorithm.getChildren
  (← nth ids 0).toVal

/-- `loadPkcs8` (tpm_private_key.py:114-155).  The concatenation with a value that is not a str is in the `try`. -/
def loadPkcs8 (L : Lib) (encoding : Bytes) (type : Option KeyType) : Except Err Key :=
  match type with
  | some t => finish L encoding t
  | none => match pkcs8Oid encoding with
    | .ok (.str s) =>
      if s = Der.dotted ecOid then finish L encoding .ec
      else if s = Der.dotted rsaOid then finish L encoding .rsa
      else .error .tpm
    | _ => .error .tpm

/-- The first `try` of `loadEncryptedPkcs8` (tpm_private_key.py:177-185): the algorithm, its parameters and the encrypted key. -/
def encryptedInfo (encoding : Bytes) : Except Der.Err (Val × Node × Val) := do
  let node ← parse encoding
  let cs ← node.getChildren
  let algorithm ← getSequence cs 0
  let ids ← algorithm.getChildren
  let oid ← (← nth ids 0).toVal
  let parameters ← nth ids 1
  let key ← (← nth cs 1).toVal
  return (oid, parameters, key)

/-- The second `try` (tpm_private_key.py:196-207): the key derivation with its parameters and the encryption scheme with its parameters. -/
def pbes2Info (parameters : Node) : Except Der.Err (Val × Node × Val × Node) := do
  let cs ← parameters.getChildren
  let derivation ← getSequence cs 0
  let ds ← derivation.getChildren
  let derivationOid ← (← nth ds 0).toVal
  let derivationParameters ← nth ds 1
  let scheme ← getSequence cs 1
  let ss ← scheme.getChildren
  let schemeOid ← (← nth ss 0).toVal
  let schemeParameters ← nth ss 1
  return (derivationOid, derivationParameters, schemeOid, schemeParameters)

/-- The third `try` (tpm_private_key.py:218-221): the salt and the iterations. -/
def pbkdf2Info (parameters : Node) : Except Der.Err (Val × Val) := do
  let cs ← parameters.getChildren
  let salt ← (← nth cs 0).toVal
  let iterations ← (← nth cs 1).toVal
  return (salt, iterations)

/-- The exception for an algorithm that is not known: the message is a concatenation, which raises TypeError if the value is not a str
(tpm_private_key.py:231-237, 274-280). -/
def unrecognized : Val → Err
  | .str _ => .tpm
  | _ => .type

/-- `loadEncryptedPkcs8` (tpm_private_key.py:157-282). -/
def loadEncryptedPkcs8 (L : Lib) (encoding password : Bytes) : Except Err Key :=
  match encryptedInfo encoding with
  | .error _ => .error .tpm
  | .ok (oid, parameters, encryptedKey) =>
    if oid ≠ .str (Der.dotted pbes2Oid) then .error (unrecognized oid)
    else match pbes2Info parameters with
      | .error _ => .error .tpm
      | .ok (derivationOid, derivationParameters, schemeOid, schemeParameters) =>
        if derivationOid ≠ .str (Der.dotted pbkdf2Oid) then .error (unrecognized derivationOid)
        else match pbkdf2Info derivationParameters with
          | .error _ => .error .tpm
          | .ok (salt, iterations) =>
            if schemeOid ≠ .str (Der.dotted desOid) then .error (unrecognized schemeOid)
            else match L.pbkdf2 salt iterations password with
              | none => .error .library
              | some derived => match schemeParameters.toVal with
                | .error _ => .error .tpm
                | .ok iv => match (L.decrypt derived iv encryptedKey).bind Nac.unpad with
                  | none => .error .tpm
                  | some pkcs8 => loadPkcs8 L pkcs8 none

/-- `toPkcs8` (tpm_private_key.py:394-410). -/
def toPkcs8 (L : Lib) (k : Option Key) : Except Err Bytes :=
  match k with
  | none => .error .tpm
  | some k => .ok (L.pkcs8 k.key)

/-- `getPayload` (der_node.py:195-201): of a sequence the payload is empty (der_node.py:43). -/
def payload : Node → Bytes
  | .leaf _ _ p => p
  | .seq _ _ _ _ => []

/-- The payload of the third child (tpm_private_key.py:386-389). -/
def pkcs1Of (pkcs8 : Bytes) : Except Der.Err Bytes := do
  let node ← parse pkcs8
  let cs ← node.getChildren
  return payload (← nth cs 2)

/-- `toPkcs1` (tpm_private_key.py:373-392). -/
def toPkcs1 (L : Lib) (k : Option Key) : Except Err Bytes :=
  match k with
  | none => .error .tpm
  | some k => match pkcs1Of (L.pkcs8 k.key) with
    | .ok b => .ok b
    | .error _ => .error .tpm

/-- `DerSequence()` with calls of `addChild` for the nodes; the second argument of `addChild` is not given. -/
def sequence (cs : List Node) : Except Der.Err Node := cs.foldlM (fun n c => match Node.addChild c false [] n with
  | some n' => .ok n'
  | none => .error .encoding) Node.empty

/-- `DerOid(str)` (der_node.py:465-479). -/
def oidNode (value : List Nat) : Except Der.Err Node := do Der.oid (← Der.oidOfString (Der.dotted value))

/-- The nodes of `toEncryptedPkcs8` (tpm_private_key.py:466-495). -/
def encryptedNode (salt iv encrypted : Bytes) : Except Der.Err Node := do
  let keyDerivationParameters ← sequence [Der.octetString salt, ← Der.integer 2048]
  let keyDerivationAlgorithm ← sequence [← oidNode pbkdf2Oid, keyDerivationParameters]
  let encryptionSchemeAlgorithm ← sequence [← oidNode desOid, Der.octetString iv]
  let parameters ← sequence [keyDerivationAlgorithm, encryptionSchemeAlgorithm]
  let algorithm ← sequence [← oidNode pbes2Oid, parameters]
  sequence [algorithm, Der.octetString encrypted]

/-- `toEncryptedPkcs8` (tpm_private_key.py:412-499); `salt` and `iv` are the 8 bytes of the random generator. -/
def toEncryptedPkcs8 (L : Lib) (salt iv : Bytes) (k : Option Key) (password : Bytes) : Except Err Bytes :=
  match k with
  | none => .error .tpm
  | some k => match L.pbkdf2 (.bytes salt) (.int 2048) password with
    | none => .error .library
    | some derived => match L.encrypt derived iv (Nac.pad (L.pkcs8 k.key)) with
      | none => .error .tpm
      | some encrypted => match encryptedNode salt iv encrypted with
        | .ok n => .ok n.encode.1
        | .error _ => .error .tpm

/-- `_doExportKey` of a key that is there (tpm_back_end_memory.py:107-133), with `tpm` for TpmBackEnd.Error. -/
def exportKey (L : Lib) (salt iv : Bytes) (k : Key) (password : Option Bytes) : Except Err Bytes :=
  match password with
  | some pw => toEncryptedPkcs8 L salt iv (some k) pw
  | none => toPkcs8 L (some k)

/-- `_doImportKey` (tpm_back_end_memory.py:135-161), with `tpm` for TpmBackEnd.Error. -/
def importKey (L : Lib) (pkcs8 : Bytes) (password : Option Bytes) : Except Err Key :=
  match password with
  | some pw => loadEncryptedPkcs8 L pkcs8 pw
  | none => loadPkcs8 L pkcs8 none

end PyNDN.PrivateKey
