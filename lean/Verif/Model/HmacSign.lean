import Verif.Model.KeyChain
import Verif.Model.Validator
/-
Model of the HMAC signatures of `KeyChain` (security/key_chain.py:1282-1416): `signWithHmacWithSha256`, `verifyDataWithHmacWithSha256`
and `verifyInterestWithHmacWithSha256`, with the cached wire encodings of Data and Interest (data.py:61-126, interest.py:603-668; C23 is
about when they are valid).

Parameter: the function HMAC-SHA256.  The wire format is the default one.
-/
namespace PyNDN.HmacSign
open PyNDN

/-- A wire encoding with the signed portion: a `SignedBlob`. -/
abbrev Wire := Bytes × Nat × Nat

/-- `SignedBlob.toSignedBytes` (util/signed_blob.py:110-122). -/
def signedBytes (w : Wire) : Bytes := KeyChain.signedPortion w.1 w.2.1 w.2.2

/-- A Data object with its cached encoding. -/
structure DataObj where
  data : Data
  cached : Option Wire := none
  deriving DecidableEq

/-- `Data.wireEncode` (data.py:61-91). -/
def DataObj.wireEncode (o : DataObj) : Except Err Wire :=
  match o.cached with
  | some w => .ok w
  | none => encodeData o.data

/-- `Data.wireDecode` (data.py:93-126) into a Data object. -/
def receive (old : Data) (input : Bytes) : Except Err DataObj :=
  match decodeData old input with
  | .ok (d, b, e) => .ok { data := d, cached := some (input, b, e) }
  | .error e => .error e

/-- `signWithHmacWithSha256(data, key)` (key_chain.py:1315-1327).  `setSignature` makes the cached encoding invalid. -/
def signData (mac : Bytes → Bytes → Bytes) (key : Bytes) (o : DataObj) : Except Err DataObj := do
  let encoding ← o.wireEncode
  let bits := mac key (signedBytes encoding)
  return { data := { o.data with signature := { o.data.signature with signature := some bits } }, cached := none }

/-- `verifyDataWithHmacWithSha256(data, key)` (key_chain.py:1368-1381). -/
def verifyData (mac : Bytes → Bytes → Bytes) (key : Bytes) (o : DataObj) : Except Err Bool := do
  let encoding ← o.wireEncode
  return decide (some (mac key (signedBytes encoding)) = o.data.signature.signature)

/-- An Interest object with its cached encoding. -/
structure InterestObj where
  interest : Interest
  cached : Option Wire := none
  deriving DecidableEq

/-- `Interest.wireEncode` (interest.py:603-633); a nonce that is not set is random. -/
def InterestObj.wireEncode (rnd : Nat → UInt8) (o : InterestObj) : Except Err Wire :=
  match o.cached with
  | some w => .ok w
  | none => encodeInterest o.interest rnd

/-- `Interest.wireDecode` (interest.py:635-668) into an Interest object. -/
def receiveInterest (old : Interest) (input : Bytes) : Except Err InterestObj :=
  match decodeInterest old input with
  | .ok (i, b, e) => .ok { interest := i, cached := some (input, b, e) }
  | .error e => .error e

/-- `signWithHmacWithSha256(interest, key, keyName)` (key_chain.py:1328-1349).  Changing the name makes the cached encoding and the nonce
invalid (C23, C24).  `SecurityException` for a missing key name is represented by `runtime`. -/
def signInterest (mac : Bytes → Bytes → Bytes) (key : Bytes) (keyName : Option Name) (rnd : Nat → UInt8) (o : InterestObj) :
    Except Err InterestObj :=
  match keyName with
  | none => .error .runtime
  | some k => do
    let encoded ← encodeSignatureInfo (.hmac { type := some 1, keyName := k }) []
    let name := o.interest.name ++ [Component.generic encoded]
    let encoding ← encodeInterest { o.interest with name := name ++ [Component.generic []], nonce := none } rnd
    let bits := mac key (signedBytes encoding)
    return { interest := { o.interest with name := name ++ [Component.generic (writeBlobTlv 23 (some bits) [])], nonce := none },
             cached := none }

/-- `verifyInterestWithHmacWithSha256(interest, key)` (key_chain.py:1402-1416). -/
def verifyInterest (mac : Bytes → Bytes → Bytes) (key : Bytes) (rnd : Nat → UInt8) (o : InterestObj) : Except Err Bool := do
  let signature ← Validator.interestSignature o.interest.name
  let encoding ← o.wireEncode rnd
  return decide (some (mac key (signedBytes encoding)) = signature.signature)

end PyNDN.HmacSign
