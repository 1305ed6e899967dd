import Verif.Model.ConfigPolicy
import Verif.Model.HmacSign
/-
Model of `SelfVerifyPolicyManager` (security/policy/self_verify_policy_manager.py:40-267) and `NoVerifyPolicyManager`
(no_verify_policy_manager.py:27-98), of `PolicyManager.verifySignature` (policy_manager.py:129-160), of `KeyChain.verifyData` and
`verifyInterest` of security v1 (key_chain.py:1149-1272) with these policies, and of signing by `IdentityManager`
(identity_manager.py:513-661, 706-738).

Parameters: verifying a signature with a public key, signing with a private key, SHA-256, and the storage of keys.  Not modelled: the text
of failure reasons, and the wrapping of old-style callbacks; an exception in a callback is logged and dropped by the code, so that a call
has two answers, which callback has been called.  The wire format is the default one.
-/
namespace PyNDN.SelfVerify
open PyNDN PyNDN.HmacSign PyNDN.ConfigPolicy

/-- What a call raises: a `SecurityException`, a `NameError`, or something else. -/
inductive Exn where
  | security | name | other (e : Err)
  deriving DecidableEq, Repr

def lift {α : Type} : Except Err α → Except Exn α
  | .ok a => .ok a
  | .error e => .error (.other e)

/-- The storage that the policy has been given (self_verify_policy_manager.py:52-58), as its function that finds a key.  A blob can be
null. -/
inductive Store where
  | none
  | identity (getKey : Name → Except Exn (Option Bytes))
  | pib (getKeyBits : Name → Except Exn (Option Bytes))

/-- `VerificationHelpers.verifySignature` with `PublicKey(publicKeyDer)`: signed portion, signature bits, key; and SHA-256. -/
structure Crypto where
  verify : Bytes → Option Bytes → Bytes → Except Exn Bool
  sha256 : Bytes → Bytes

/-- `_getPublicKeyDer` (self_verify_policy_manager.py:227-267).  In the handler of line 260 the variable `keyName` is not bound. -/
def getPublicKeyDer (S : Store) (kl : KeyLocator) : Except Exn (Option Bytes) :=
  match S with
  | .none => .ok none
  | .identity getKey =>
    if kl.type = some 1 then
      match publicKeyName kl.keyName with
      | .error _ => .ok none
      | .ok k =>
        match getKey k with
        | .ok der => .ok der
        | .error .security => .ok none
        | .error e => .error e
    else .ok none
  | .pib getKeyBits =>
    if kl.type = some 1 then
      match getKeyBits kl.keyName with
      | .ok der => .ok der
      | .error .security => .error .name
      | .error e => .error e
    else .ok none

/-- `PolicyManager.verifySignature` (policy_manager.py:129-160). -/
def verifySignature (C : Crypto) (sig : Signature) (signed : Bytes) (der : Option Bytes) : Except Exn Bool :=
  let withKey := match der with
    | none => .ok false
    | some der => C.verify signed sig.signature der
  match sig.info with
  | .rsa _ _ => withKey
  | .ecdsa _ _ => withKey
  | .digest => .ok (decide (sig.signature = some (C.sha256 signed)))
  | _ => .error .security

/-- `_verify` (self_verify_policy_manager.py:195-225). -/
def verify (S : Store) (C : Crypto) (sig : Signature) (signed : Bytes) : Except Exn Bool :=
  match sig.info.keyLocator? with
  | none => verifySignature C sig signed none
  | some kl =>
    match getPublicKeyDer S kl with
    | .error e => .error e
    | .ok none => .ok false
    | .ok (some der) => verifySignature C sig signed (some der)

/-- The callback that is called. -/
inductive Answer where
  | verified | failed
  deriving DecidableEq, Repr

def Answer.of (b : Bool) : Answer := if b then .verified else .failed

inductive Policy where
  | selfVerify (S : Store)
  | noVerify

/-- `KeyChain.verifyData` (key_chain.py:1149-1207) with `checkVerificationPolicy` (self_verify_policy_manager.py:116-128): the
`requireVerify` of the first policy is true; the second has `requireVerify` false and `skipVerifyAndTrust` true. -/
def verifyData (P : Policy) (C : Crypto) (o : DataObj) : Except Exn Answer :=
  match P with
  | .noVerify => .ok .verified
  | .selfVerify S =>
    match o.wireEncode with
    | .error e => .error (.other e)
    | .ok w =>
      match verify S C o.data.signature (signedBytes w) with
      | .error e => .error e
      | .ok b => .ok (.of b)

/-- `KeyChain.verifyInterest` (key_chain.py:1209-1272) with `checkVerificationPolicy` (self_verify_policy_manager.py:129-164). -/
def verifyInterest (P : Policy) (C : Crypto) (rnd : Nat → UInt8) (o : InterestObj) : Except Exn Answer :=
  match P with
  | .noVerify => .ok .verified
  | .selfVerify S =>
    if o.interest.name.length < 2 then .ok .failed
    else match Validator.interestSignature o.interest.name with
      | .error _ => .ok .failed
      | .ok sig =>
        match o.wireEncode rnd with
        | .error e => .error (.other e)
        | .ok w =>
          match verify S C sig (signedBytes w) with
          | .error e => .error e
          | .ok b => .ok (.of b)

/-! ### Signing -/

inductive KeyType where
  | rsa | ec | other
  deriving DecidableEq, Repr

/-- The storage of private keys: the type of `getPublicKey(keyName)`, and `sign(data, keyName, SHA256)`. -/
structure PrivateKeys where
  keyType : Name → Except Exn KeyType
  sign : Bytes → Name → Except Exn Bytes

/-- `_makeSignatureByCertificate` (identity_manager.py:706-738), with the name of the key.  The name is not empty here, since it has
a public key name: `getPrefix(-1)` drops the last component. -/
def makeSignature (T : PrivateKeys) (cert : Name) : Except Exn (SigInfo × Name) := do
  let k ← lift (publicKeyName cert)
  match ← T.keyType k with
  | .rsa => return (.rsa { type := some 1, keyName := cert.dropLast } none, k)
  | .ec => return (.ecdsa { type := some 1, keyName := cert.dropLast } none, k)
  | .other => .error .security

/-- The common steps of `signByCertificate` (identity_manager.py:539-549) and `signWithSha256` (615-626) for Data: `setSignature` makes
the cached encoding invalid, and the last encoding is cached. -/
def signDataWith (info : SigInfo) (sign : Bytes → Except Exn Bytes) (o : DataObj) : Except Exn DataObj := do
  let w ← lift (encodeData { o.data with signature := { info := info } })
  let bits ← sign (signedBytes w)
  let d := { o.data with signature := { info := info, signature := some bits } }
  let w ← lift (encodeData d)
  return { data := d, cached := some w }

/-- `signByCertificate(data, certificateName)` (identity_manager.py:513-549). -/
def signData (T : PrivateKeys) (cert : Name) (o : DataObj) : Except Exn DataObj := do
  let (info, k) ← makeSignature T cert
  signDataWith info (fun m => T.sign m k) o

/-- `signWithSha256` (identity_manager.py:600-626). -/
def signDataWithSha256 (C : Crypto) (o : DataObj) : Except Exn DataObj :=
  signDataWith .digest (fun m => .ok (C.sha256 m)) o

/-- `signByCertificate(buffer, certificateName)` (identity_manager.py:550-561). -/
def signBuffer (T : PrivateKeys) (cert : Name) (m : Bytes) : Except Exn Signature := do
  let (info, k) ← makeSignature T cert
  let bits ← T.sign m k
  return { info := info, signature := some bits }

/-- The common steps of `signInterestByCertificate` (identity_manager.py:584-598) and `signInterestWithSha256` (644-661).  Changing the
name makes the cached encoding and the nonce invalid. -/
def signInterestWith (info : SigInfo) (sign : Bytes → Except Exn Bytes) (rnd : Nat → UInt8) (o : InterestObj) : Except Exn InterestObj := do
  let encoded ← lift (encodeSignatureInfo info [])
  let name := o.interest.name ++ [Component.generic encoded]
  let w ← lift (encodeInterest { o.interest with name := name ++ [Component.generic []], nonce := none } rnd)
  let bits ← sign (signedBytes w)
  return { interest := { o.interest with name := name ++ [Component.generic (writeBlobTlv 23 (some bits) [])], nonce := none },
           cached := none }

/-- `signInterestByCertificate` (identity_manager.py:563-598). -/
def signInterest (T : PrivateKeys) (cert : Name) (rnd : Nat → UInt8) (o : InterestObj) : Except Exn InterestObj := do
  let (info, k) ← makeSignature T cert
  signInterestWith info (fun m => T.sign m k) rnd o

/-- `signInterestWithSha256` (identity_manager.py:628-661). -/
def signInterestWithSha256 (C : Crypto) (rnd : Nat → UInt8) (o : InterestObj) : Except Exn InterestObj :=
  signInterestWith .digest (fun m => .ok (C.sha256 m)) rnd o

end PyNDN.SelfVerify
