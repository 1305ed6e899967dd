import Verif.Model.Packet
/-
Model of `EncryptedContent` (encrypt/encrypted_content.py), of its two encodings (encoding/tlv_0_2_wire_format.py) and of the
encoding of a `SafeBag` (security/safe_bag.py).
-/
namespace PyNDN
namespace Encrypt

/-- `EncryptedContent` (encrypted_content.py:39-48, 199-207). -/
structure EncryptedContent where
  algorithmType : Option Nat := none
  keyLocator : KeyLocator := {}
  initialVector : Option Bytes := none
  payload : Option Bytes := none
  payloadKey : Option Bytes := none
  deriving DecidableEq, Repr

/-- `encodeEncryptedContent` (tlv_0_2_wire_format.py:674-700).  `writeNonNegativeIntegerTlv` of None raises a TypeError. -/
def encodeEncryptedContent (c : EncryptedContent) : Except Err Bytes := do
  let out : Bytes := []
  let saveLength := out.length
  let out := writeBlobTlv 132 c.payload out
  let out := writeOptionalBlobTlv 133 c.initialVector out
  let out ← match c.algorithmType with
    | some a => writeNonNegativeIntegerTlv 131 a out
    | none => (.error .type : Except Err Bytes)
  let out ← encodeKeyLocator 28 c.keyLocator out
  return writeTypeAndLength 130 (out.length - saveLength) out

/-- `decodeEncryptedContent` (tlv_0_2_wire_format.py:702-731); the object is cleared first. -/
def decodeEncryptedContentFrom : Dec EncryptedContent := do
  let endOffset ← readNestedTlvsStart 130
  let keyLocator ← decodeKeyLocator 28
  let algorithmType ← readNonNegativeIntegerTlv 131
  let initialVector ← readOptionalBlobTlv 133 endOffset
  let payload ← readBlobTlv 132
  finishNestedTlvs endOffset
  return { algorithmType := some algorithmType, keyLocator := keyLocator, initialVector := initialVector, payload := some payload }

def decodeEncryptedContent (input : Bytes) : Except Err EncryptedContent := runDec decodeEncryptedContentFrom input

/-- `encodeEncryptedContentV2` (tlv_0_2_wire_format.py:733-761). -/
def encodeEncryptedContentV2 (c : EncryptedContent) : Bytes :=
  let out : Bytes := []
  let saveLength := out.length
  let out := if c.keyLocator.type = some 1 then encodeNameTo c.keyLocator.keyName out else out
  let out := writeOptionalBlobTlv 134 c.payloadKey out
  let out := writeOptionalBlobTlv 133 c.initialVector out
  let out := writeBlobTlv 132 c.payload out
  writeTypeAndLength 130 (out.length - saveLength) out

/-- The Name of `decodeEncryptedContentV2` (tlv_0_2_wire_format.py:790-793). -/
def decodeLocatorName : Dec KeyLocator := do
  let (name, _, _) ← decodeNameFrom
  return { type := some 1, keyName := name }

/-- `decodeEncryptedContentV2` (tlv_0_2_wire_format.py:763-795); the object is cleared first. -/
def decodeEncryptedContentV2From : Dec EncryptedContent := do
  let endOffset ← readNestedTlvsStart 130
  let payload ← readBlobTlv 132
  let initialVector ← readOptionalBlobTlv 133 endOffset
  let payloadKey ← readOptionalBlobTlv 134 endOffset
  let keyLocator ← optionally 7 endOffset decodeLocatorName {}
  finishNestedTlvs endOffset
  return { keyLocator := keyLocator, initialVector := initialVector, payload := some payload, payloadKey := payloadKey }

def decodeEncryptedContentV2 (input : Bytes) : Except Err EncryptedContent := runDec decodeEncryptedContentV2From input

/-! ### SafeBag -/

/-- `SafeBag` (safe_bag.py:48-97): the certificate and the encoded private key. -/
structure SafeBag where
  certificate : Data
  privateKeyBag : Bytes
  deriving DecidableEq

/-- `SafeBag.wireEncode` (safe_bag.py:149-171). -/
def SafeBag.wireEncode (b : SafeBag) : Except Err Bytes := do
  let out : Bytes := []
  let saveLength := out.length
  let out := writeBlobTlv 129 (some b.privateKeyBag) out
  let (cert, _, _) ← encodeData b.certificate
  let out := writeBuffer (some cert) out
  return writeTypeAndLength 128 (out.length - saveLength) out

/-- `SafeBag.wireDecode` (safe_bag.py:120-147). -/
def SafeBag.wireDecodeFrom : Dec SafeBag := do
  let endOffset ← readNestedTlvsStart 128
  let certificateBeginOffset ← getOffset
  let certificateEndOffset ← readNestedTlvsStart 6
  seek certificateEndOffset
  let bytes ← getSlice certificateBeginOffset certificateEndOffset
  let (certificate, _, _) ← Dec.lift (decodeData {} bytes)
  let privateKeyBag ← readBlobTlv 129
  finishNestedTlvs endOffset
  return { certificate := certificate, privateKeyBag := privateKeyBag }

def SafeBag.wireDecode (input : Bytes) : Except Err SafeBag := runDec SafeBag.wireDecodeFrom input

end Encrypt
end PyNDN
