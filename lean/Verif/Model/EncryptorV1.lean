import Verif.Model.Nac
/-
Model of `Encryptor.encryptData` (encrypt/algo/encryptor.py), with which `GroupManager` and `Producer` encrypt.

What is not modelled: RSA and AES, and the random generator, whose choices are arguments.
Simplification: `AesAlgorithm.encrypt` does not raise; here its keys are made by the library and have 16 bytes.
-/
namespace PyNDN.EncV1
open Encrypt (EncryptedContent encodeEncryptedContent)
open Nac (Aes)

/-- The components (encryptor.py:41-47). -/
def forC : Component := .generic [0x46, 0x4f, 0x52]
def readC : Component := .generic [0x52, 0x45, 0x41, 0x44]
def sampleC : Component := .generic [0x53, 0x41, 0x4d, 0x50, 0x4c, 0x45]
def eKeyC : Component := .generic [0x45, 0x2d, 0x4b, 0x45, 0x59]
def dKeyC : Component := .generic [0x44, 0x2d, 0x4b, 0x45, 0x59]
def cKeyC : Component := .generic [0x43, 0x2d, 0x4b, 0x45, 0x59]
/-- encryptor.py:98 -/
def nonceC : Component := .generic [0x6e, 0x6f, 0x6e, 0x63, 0x65]

/-- How `RsaAlgorithm.encrypt` ends (rsa_algorithm.py:79-91). -/
inductive RsaResult where
  | ok (cipher : Bytes)
  /-- ValueError("Data too long for key size ...") -/
  | tooLong
  | raises (e : Err)
  deriving DecidableEq

/-- What is not modelled: RSA.  Keys are the bytes of their encodings; `encrypt` has the random choice of the padding as the last argument. -/
structure Rsa where
  derive : Bytes → Option Bytes
  encrypt : Bytes → Bytes → Nat → RsaResult
  decrypt : Bytes → Bytes → Option Bytes

/-- The random choices in one call. -/
structure Random where
  pad1 : Nat := 0
  pad2 : Nat := 0
  nonce : Bytes := List.replicate 16 0
  iv : Bytes := List.replicate 16 0

/-- The key locator (encryptor.py:135-137, 171-173). -/
def locator (keyName : Name) : KeyLocator := { type := some 1, keyName := keyName }

/-- `_encryptSymmetric` with AesCbc (encryptor.py:120-154). -/
def encryptSymmetric (A : Aes) (payload key : Bytes) (keyName : Name) (iv : Bytes) : Except Err EncryptedContent :=
  if iv.length ≠ 16 then .error .runtime
  else .ok { algorithmType := some 1, keyLocator := locator keyName, payload := some (A.encryptCbc key iv payload), initialVector := some iv }

/-- The result of `_encryptAsymmetric` with RsaOaep (encryptor.py:179-183). -/
def asymmetric (cipher : Bytes) (keyName : Name) : EncryptedContent :=
  { algorithmType := some 3, keyLocator := locator keyName, payload := some cipher }

/-- `encryptData` with AesCbc (encryptor.py:49-75). -/
def encryptDataAes (A : Aes) (data : Data) (payload : Bytes) (keyName : Name) (key iv : Bytes) : Except Err Data := do
  let data := { data with name := data.name ++ forC :: keyName }
  let content ← encryptSymmetric A payload key keyName iv
  let wire ← encodeEncryptedContent content
  return { data with content := some wire }

/-- `encryptData` with RsaOaep (encryptor.py:49-71, 76-116). -/
def encryptDataRsa (R : Rsa) (A : Aes) (data : Data) (payload : Bytes) (keyName : Name) (key : Bytes) (rnd : Random) : Except Err Data := do
  let data := { data with name := data.name ++ forC :: keyName }
  match R.encrypt key payload rnd.pad1 with
  | .ok cipher =>
    let wire ← encodeEncryptedContent (asymmetric cipher keyName)
    return { data with content := some wire }
  | .raises e => .error e
  | .tooLong =>
    let nonceContent ← encryptSymmetric A payload rnd.nonce (keyName ++ [nonceC]) rnd.iv
    match R.encrypt key rnd.nonce rnd.pad2 with
    | .raises e => .error e
    | .tooLong => .error .value
    | .ok cipher =>
      let nonceWire ← encodeEncryptedContent nonceContent
      let payloadWire ← encodeEncryptedContent (asymmetric cipher keyName)
      return { data with content := some (payloadWire ++ nonceWire) }

end PyNDN.EncV1
