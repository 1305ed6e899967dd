import Verif.Model.Encoder
import Verif.Model.Name
import Verif.Model.Text
/-
Model of the data classes and of the encode / decode functions of `Tlv0_2WireFormat`
(encoding/tlv_0_2_wire_format.py) for Data, Interest, DelegationSet, ControlParameters,
ControlResponse and LpPacket.  The pure Python code is modelled (`haveModule_pyndn` is False).

A `Blob` that may be null is `Option Bytes`.  Times in milliseconds are whole numbers (Python floats
in the code).
-/
namespace PyNDN

/-- `Blob.size()` (util/blob.py:86-96). -/
def blobSize (b : Option Bytes) : Nat := match b with | none => 0 | some b => b.length

/-- The conversion of an int to a Python float (IEEE double, 53 bit significand, ties to even), as in
`readOptionalNonNegativeIntegerTlvAsFloat` (tlv_decoder.py:270-290).  The result is a whole number. -/
def floatOfNat (n : Nat) : Nat :=
  if n ≤ 2 ^ 53 then n
  else
    let u := 2 ^ (n.log2 - 52)
    let q := n / u
    let r := n % u
    (if 2 * r < u then q else if 2 * r > u then q + 1 else if q % 2 = 0 then q else q + 1) * u

/-- `TlvDecoder.readOptionalNonNegativeIntegerTlvAsFloat` (tlv_decoder.py:270-290). -/
def readOptionalNonNegativeIntegerTlvAsFloat (expectedType endOffset : Nat) : Dec (Option Nat) := do
  let v ← readOptionalNonNegativeIntegerTlv expectedType endOffset
  return v.map floatOfNat

/-- `TlvEncoder.writeOptionalNonNegativeIntegerTlvFromFloat` (tlv_encoder.py:168-180) for a whole
number. -/
def writeOptionalNonNegativeIntegerTlvFromFloat (type : Nat) (value : Option Int) (out : Bytes) :
    Except Err Bytes := writeOptionalNonNegativeIntegerTlv type value out

/-- The recurring `if decoder.peekType(type, endOffset): ... else: ...` of the decoding functions:
read an optional element with `m`, or take the value `d` when it is absent. -/
def optionally (type endOffset : Nat) (m : Dec α) (d : α) : Dec α := do
  if ← peekType type endOffset then m else return d

/-! ### Key locators -/

/-- `KeyLocator` (key_locator.py:37-52); type 1 is KEYNAME, 2 is KEY_LOCATOR_DIGEST. -/
structure KeyLocator where
  type : Option Nat := none
  keyName : Name := []
  keyData : Option Bytes := none
  deriving DecidableEq, Repr

/-- `KeyLocator.equals` (key_locator.py:191-206). -/
def KeyLocator.equals (self other : KeyLocator) : Bool :=
  if self.type ≠ other.type then false
  else if self.type = some 1 && !(self.keyName.equals other.keyName) then false
  else if self.type = some 2 && !(self.keyData == other.keyData) then false
  else true

/-- `_encodeKeyLocator` (tlv_0_2_wire_format.py:1197-1212). -/
def encodeKeyLocator (type : Nat) (kl : KeyLocator) (out : Bytes) : Except Err Bytes := do
  let saveLength := out.length
  let out ←
    match kl.type with
    | none => (.ok out : Except Err Bytes)
    | some t =>
      if t = 1 then .ok (encodeNameTo kl.keyName out)
      else if t = 2 ∧ blobSize kl.keyData > 0 then .ok (writeBlobTlv 29 kl.keyData out)
      else .error .runtime
  return writeTypeAndLength type (out.length - saveLength) out

/-- `_decodeKeyLocator` (tlv_0_2_wire_format.py:1215-1236).  The object is cleared first, so the old
value has no influence. -/
def decodeKeyLocator (expectedType : Nat) : Dec KeyLocator := do
  let endOffset ← readNestedTlvsStart expectedType
  let off ← getOffset
  if off = endOffset then
    return {}
  else if ← peekType 7 endOffset then
    let (name, _, _) ← decodeNameFrom
    finishNestedTlvs endOffset
    return { type := some 1, keyName := name }
  else if ← peekType 29 endOffset then
    let data ← readBlobTlv 29
    finishNestedTlvs endOffset
    return { type := some 2, keyData := some data }
  else
    Dec.throw .runtime

/-! ### Meta info -/

/-- `MetaInfo` (meta_info.py:36-50, 157-166).  The content types are BLOB 0, LINK 1, KEY 2, NACK 3 and
OTHER_CODE 0x7fff (meta_info.py:194-206). -/
structure MetaInfo where
  type : Nat := 0
  otherTypeCode : Int := -1
  freshnessPeriod : Option Nat := none
  finalBlockId : Component := Component.generic []
  deriving DecidableEq, Repr

/-- `_encodeMetaInfo` (tlv_0_2_wire_format.py:1023-1054). -/
def encodeMetaInfo (mi : MetaInfo) (out : Bytes) : Except Err Bytes := do
  let saveLength := out.length
  let out :=
    if mi.finalBlockId.value.length > 0 then
      let finalBlockIdSaveLength := out.length
      let out := encodeNameComponent mi.finalBlockId out
      writeTypeAndLength 26 (out.length - finalBlockIdSaveLength) out
    else out
  let out ← writeOptionalNonNegativeIntegerTlvFromFloat 25 (mi.freshnessPeriod.map Int.ofNat) out
  let out ←
    if mi.type ≠ 0 then
      if mi.type = 1 ∨ mi.type = 2 ∨ mi.type = 3 then writeNonNegativeIntegerTlv 24 mi.type out
      else if mi.type = 0x7fff then writeNonNegativeIntegerTlv 24 mi.otherTypeCode out
      else .error .runtime
    else (.ok out : Except Err Bytes)
  return writeTypeAndLength 20 (out.length - saveLength) out

/-- Set the content type from the decoded code (tlv_0_2_wire_format.py:1062-1074).  `old` matters
because the other type code is only set for an unrecognized code. -/
def metaInfoOfType (old : MetaInfo) (typeCode : Option Nat) : MetaInfo :=
  match typeCode with
  | none => { old with type := 0 }
  | some c =>
    if c = 0 then { old with type := 0 }
    else if c = 1 ∨ c = 2 ∨ c = 3 then { old with type := c }
    else { old with type := 0x7fff, otherTypeCode := c }

/-- The FinalBlockId TLV (tlv_0_2_wire_format.py:1080-1083). -/
def decodeFinalBlockId : Dec Component := do
  let finalBlockIdEndOffset ← readNestedTlvsStart 26
  let c ← decodeNameComponent
  finishNestedTlvs finalBlockIdEndOffset
  return c

/-- `_decodeMetaInfo` (tlv_0_2_wire_format.py:1057-1087), into the existing object `old`. -/
def decodeMetaInfo (old : MetaInfo) : Dec MetaInfo := do
  let endOffset ← readNestedTlvsStart 20
  let typeCode ← readOptionalNonNegativeIntegerTlv 24 endOffset
  let mi := metaInfoOfType old typeCode
  let fresh ← readOptionalNonNegativeIntegerTlvAsFloat 25 endOffset
  let mi := { mi with freshnessPeriod := fresh }
  let c ← optionally 26 endOffset decodeFinalBlockId (Component.generic [])
  let mi := { mi with finalBlockId := c }
  finishNestedTlvs endOffset
  return mi

/-! ### Signatures -/

/-- `ValidityPeriod` (validity_period.py:48-64): `none` for the default ("not specified") period. -/
abbrev ValidityPeriod := Option (Int × Int)

/-- `ValidityPeriod.setPeriod` (validity_period.py:103-122) for whole numbers of milliseconds: rounds
the start up and the end down to whole seconds. -/
def setPeriod (notBefore notAfter : Int) : ValidityPeriod :=
  some (-((-notBefore) / 1000) * 1000, notAfter / 1000 * 1000)

/-- `_encodeValidityPeriod` (tlv_0_2_wire_format.py:1239-1249). -/
def encodeValidityPeriod (notBefore notAfter : Int) (out : Bytes) : Except Err Bytes := do
  let saveLength := out.length
  let na ← toIsoString notAfter
  let out := writeBlobTlv 255 (some (asciiBytes na)) out
  let nb ← toIsoString notBefore
  let out := writeBlobTlv 254 (some (asciiBytes nb)) out
  return writeTypeAndLength 253 (out.length - saveLength) out

/-- `_decodeValidityPeriod` (tlv_0_2_wire_format.py:1252-1268). -/
def decodeValidityPeriod : Dec ValidityPeriod := do
  let endOffset ← readNestedTlvsStart 253
  let b ← readBlobTlv 254
  let s ← Dec.lift (utf8Decode b)
  let notBefore ← Dec.lift (fromIsoString s)
  let b ← readBlobTlv 255
  let s ← Dec.lift (utf8Decode b)
  let notAfter ← Dec.lift (fromIsoString s)
  finishNestedTlvs endOffset
  return setPeriod notBefore notAfter

/-- What a signature object holds apart from the signature bits: `Sha256WithRsaSignature`,
`Sha256WithEcdsaSignature`, `HmacWithSha256Signature`, `DigestSha256Signature`, `GenericSignature`
(generic_signature.py:39-54). -/
inductive SigInfo where
  | rsa (keyLocator : KeyLocator) (validity : ValidityPeriod)
  | ecdsa (keyLocator : KeyLocator) (validity : ValidityPeriod)
  | hmac (keyLocator : KeyLocator)
  | digest
  | generic (encoding : Option Bytes) (typeCode : Option Nat)
  deriving DecidableEq, Repr

structure Signature where
  info : SigInfo := .rsa {} none
  signature : Option Bytes := none
  deriving DecidableEq, Repr

/-- `KeyLocator.canGetFromSignature` and `getFromSignature` (key_locator.py:130-166). -/
def SigInfo.keyLocator? : SigInfo → Option KeyLocator
  | .rsa kl _ => some kl
  | .ecdsa kl _ => some kl
  | .hmac kl => some kl
  | .digest => none
  | .generic _ _ => none

/-- The sanity check of a GenericSignature encoding (tlv_0_2_wire_format.py:1103-1112).  It turns a
ValueError into a ValueError. -/
def checkGeneric : Dec Unit := do
  let endOffset ← readNestedTlvsStart 22
  let _ ← readNonNegativeIntegerTlv 27
  finishNestedTlvs endOffset true

/-- The key locator, validity period and type of an RSA or ECDSA signature
(tlv_0_2_wire_format.py:1120-1136). -/
def encodeKeyLocatorAndPeriod (kl : KeyLocator) (vp : ValidityPeriod) (code : Int) (out : Bytes) :
    Except Err Bytes := do
  let out ←
    match vp with
    | some (nb, na) => encodeValidityPeriod nb na out
    | none => .ok out
  let out ← encodeKeyLocator 28 kl out
  writeNonNegativeIntegerTlv 27 code out

/-- `_encodeSignatureInfo` (tlv_0_2_wire_format.py:1090-1149).  A GenericSignature with a null
encoding makes `TlvDecoder(None)`, whose first read raises TypeError. -/
def encodeSignatureInfo (si : SigInfo) (out : Bytes) : Except Err Bytes :=
  let saveLength := out.length
  let finish (r : Except Err Bytes) : Except Err Bytes := do
    let out ← r
    return writeTypeAndLength 22 (out.length - saveLength) out
  match si with
  | .generic none _ => .error .type
  | .generic (some enc) _ =>
    match checkGeneric.run enc 0 with
    | .error e => .error e
    | .ok _ => .ok (writeBuffer (some enc) out)
  | .rsa kl vp => finish (encodeKeyLocatorAndPeriod kl vp 1 out)
  | .ecdsa kl vp => finish (encodeKeyLocatorAndPeriod kl vp 3 out)
  | .hmac kl => finish do
    let out ← encodeKeyLocator 28 kl out
    writeNonNegativeIntegerTlv 27 4 out
  | .digest => finish (writeNonNegativeIntegerTlv 27 0 out)

/-- The optional validity period of a decoded RSA or ECDSA signature
(tlv_0_2_wire_format.py:1165-1167). -/
def decodeOptionalValidity (endOffset : Nat) : Dec ValidityPeriod :=
  optionally 253 endOffset decodeValidityPeriod none

/-- The branches on the signature type (tlv_0_2_wire_format.py:1157-1192). -/
def decodeSigFields (beginOffset endOffset signatureType : Nat) : Dec SigInfo :=
  if signatureType = 1 then do
    let kl ← decodeKeyLocator 28
    let vp ← decodeOptionalValidity endOffset
    return SigInfo.rsa kl vp
  else if signatureType = 3 then do
    let kl ← decodeKeyLocator 28
    let vp ← decodeOptionalValidity endOffset
    return SigInfo.ecdsa kl vp
  else if signatureType = 4 then do
    let kl ← decodeKeyLocator 28
    return SigInfo.hmac kl
  else if signatureType = 0 then
    return SigInfo.digest
  else do
    let bs ← getSlice beginOffset endOffset
    finishNestedTlvs endOffset true
    return SigInfo.generic (some bs) (some signatureType)

/-- `_decodeSignatureInfo` (tlv_0_2_wire_format.py:1152-1194).  It makes a new signature object. -/
def decodeSignatureInfo : Dec SigInfo := do
  let beginOffset ← getOffset
  let endOffset ← readNestedTlvsStart 22
  let signatureType ← readNonNegativeIntegerTlv 27
  let si ← decodeSigFields beginOffset endOffset signatureType
  finishNestedTlvs endOffset
  return si

/-! ### Data -/

/-- The fields of `Data` (data.py:48-52). -/
structure Data where
  name : Name := []
  metaInfo : MetaInfo := {}
  content : Option Bytes := none
  signature : Signature := {}
  deriving DecidableEq, Repr

/-- `encodeData` (tlv_0_2_wire_format.py:299-336): the bytes and the begin and end of the signed
portion. -/
def encodeData (data : Data) : Except Err (Bytes × Nat × Nat) := do
  let saveLength := 0
  let out := writeBlobTlv 23 data.signature.signature []
  let signedPortionEndOffsetFromBack := out.length
  let out ← encodeSignatureInfo data.signature.info out
  let out := writeBlobTlv 21 data.content out
  let out ← encodeMetaInfo data.metaInfo out
  let out := encodeNameTo data.name out
  let signedPortionBeginOffsetFromBack := out.length
  let out := writeTypeAndLength 6 (out.length - saveLength) out
  let signedPortionBeginOffset := out.length - signedPortionBeginOffsetFromBack
  let signedPortionEndOffset := out.length - signedPortionEndOffsetFromBack
  return (out, signedPortionBeginOffset, signedPortionEndOffset)

/-- `decodeData` (tlv_0_2_wire_format.py:338-378), into the existing object `old`. -/
def decodeDataFrom (old : Data) : Dec (Data × Nat × Nat) := do
  let endOffset ← readNestedTlvsStart 6
  let signedPortionBeginOffset ← getOffset
  let (name, _, _) ← decodeNameFrom
  let mi ← optionally 20 endOffset (decodeMetaInfo old.metaInfo) {}
  let content ← readOptionalBlobTlv 21 endOffset
  let si ← decodeSignatureInfo
  let signedPortionEndOffset ← getOffset
  let sv ← readBlobTlv 23
  finishNestedTlvs endOffset
  return ({ name := name, metaInfo := mi, content := content,
            signature := { info := si, signature := some sv } },
          signedPortionBeginOffset, signedPortionEndOffset)

/-- The result of a decoding function applied to a whole input, starting at offset 0. -/
def runDec (m : Dec α) (input : Bytes) : Except Err α :=
  match m.run input 0 with
  | .ok (a, _) => .ok a
  | .error e => .error e

def decodeData (old : Data) (input : Bytes) : Except Err (Data × Nat × Nat) :=
  runDec (decodeDataFrom old) input

/-! ### Delegation sets -/

/-- `DelegationSet.Delegation` (delegation_set.py:50-79). -/
structure Delegation where
  preference : Int
  name : Name
  deriving DecidableEq, Repr

abbrev DelegationSet := List Delegation

/-- `Delegation.compare` (delegation_set.py:81-97). -/
def Delegation.compare (self other : Delegation) : Int :=
  if self.preference < other.preference then -1
  else if self.preference > other.preference then 1
  else self.name.compare other.name

/-- `DelegationSet.remove` (delegation_set.py:136-157): goes backwards through the list and pops every
entry with the name; also whether something was removed. -/
def DelegationSet.remove (name : Name) : DelegationSet → DelegationSet × Bool
  | [] => ([], false)
  | d :: ds =>
    let (rest, was) := DelegationSet.remove name ds
    if d.name.equals name then (rest, true) else (d :: rest, was)

/-- The loop of `add` that finds the first entry that is not less than the new one
(delegation_set.py:113-118), and the insertion. -/
def DelegationSet.insertSorted (new : Delegation) : DelegationSet → DelegationSet
  | [] => [new]
  | d :: ds => if d.compare new ≥ 0 then new :: d :: ds else d :: DelegationSet.insertSorted new ds

/-- `DelegationSet.add` (delegation_set.py:99-121). -/
def DelegationSet.add (set : DelegationSet) (preference : Int) (name : Name) : DelegationSet :=
  DelegationSet.insertSorted ⟨preference, name⟩ (DelegationSet.remove name set).1

/-- `DelegationSet.addUnsorted` (delegation_set.py:123-134). -/
def DelegationSet.addUnsorted (set : DelegationSet) (preference : Int) (name : Name) : DelegationSet :=
  set ++ [⟨preference, name⟩]

/-- `DelegationSet.find` (delegation_set.py:187-199): the loop from index `i`. -/
def DelegationSet.findFrom (name : Name) : DelegationSet → Int → Int
  | [], _ => -1
  | d :: ds, i => if d.name.equals name then i else DelegationSet.findFrom name ds (i + 1)

def DelegationSet.find (set : DelegationSet) (name : Name) : Int := DelegationSet.findFrom name set 0

/-- `_encodeDelegationSet` (tlv_0_2_wire_format.py:1383-1402): backwards over the list. -/
def encodeDelegationSetTo : DelegationSet → Bytes → Except Err Bytes
  | [], out => .ok out
  | d :: ds, out => do
    let out ← encodeDelegationSetTo ds out
    let saveLength := out.length
    let out := encodeNameTo d.name out
    let out ← writeNonNegativeIntegerTlv 30 d.preference out
    return writeTypeAndLength 31 (out.length - saveLength) out

/-- One pass of the loop of `_decodeDelegationSet` (tlv_0_2_wire_format.py:1423-1430).  The length of
the Link_Delegation TLV is not used. -/
def decodeDelegation (set : DelegationSet) : Dec DelegationSet := do
  let _ ← readTypeAndLength 31
  let preference ← readNonNegativeIntegerTlv 30
  let (name, _, _) ← decodeNameFrom
  return set ++ [⟨preference, name⟩]

/-- `_decodeDelegationSet` (tlv_0_2_wire_format.py:1405-1430). -/
def decodeDelegationSetFrom (endOffset : Nat) : Dec DelegationSet :=
  whileBefore endOffset decodeDelegation []

/-- `encodeDelegationSet` (tlv_0_2_wire_format.py:636-651). -/
def encodeDelegationSet (set : DelegationSet) : Except Err Bytes := encodeDelegationSetTo set []

/-- `decodeDelegationSet` (tlv_0_2_wire_format.py:653-672). -/
def decodeDelegationSet (input : Bytes) : Except Err DelegationSet :=
  runDec (decodeDelegationSetFrom input.length) input

/-! ### Exclude -/

/-- `Exclude.Entry` (exclude.py:51-89): `none` is ANY. -/
abbrev Exclude := List (Option Component)

/-- The backwards loop of `_encodeExclude` (tlv_0_2_wire_format.py:992-1002). -/
def encodeExcludeEntries : Exclude → Bytes → Bytes
  | [], out => out
  | none :: es, out => writeTypeAndLength 19 0 (encodeExcludeEntries es out)
  | some c :: es, out => encodeNameComponent c (encodeExcludeEntries es out)

/-- `_encodeExclude` (tlv_0_2_wire_format.py:987-1004). -/
def encodeExclude (ex : Exclude) (out : Bytes) : Bytes :=
  let saveLength := out.length
  let out := encodeExcludeEntries ex out
  writeTypeAndLength 16 (out.length - saveLength) out

/-- One pass of the loop of `_decodeExclude` (tlv_0_2_wire_format.py:1012-1018). -/
def decodeExcludeEntry (endOffset : Nat) (ex : Exclude) : Dec Exclude := do
  if ← peekType 19 endOffset then
    let _ ← readBooleanTlv 19 endOffset
    return ex ++ [none]
  else
    let c ← decodeNameComponent
    return ex ++ [some c]

/-- `_decodeExclude` (tlv_0_2_wire_format.py:1007-1020). -/
def decodeExclude : Dec Exclude := do
  let endOffset ← readNestedTlvsStart 16
  let ex ← whileBefore endOffset (decodeExcludeEntry endOffset) []
  finishNestedTlvs endOffset
  return ex

/-! ### Interest -/

/-- The fields of `Interest` that an encoding depends on (interest.py:65-84).  The link is held as its
wire encoding (`_linkWireEncoding`); a decoded `Link` object is represented by its encoding.  The
setters replace negative numbers by None (util/common.py:146-167). -/
structure Interest where
  name : Name := []
  minSuffix : Option Nat := none
  maxSuffix : Option Nat := none
  keyLocator : KeyLocator := {}
  exclude : Exclude := []
  childSelector : Option Nat := none
  mustBeFresh : Bool := false
  nonce : Option Bytes := none
  lifetime : Option Nat := none
  forwardingHint : DelegationSet := []
  applicationParameters : Option Bytes := none
  link : Option Bytes := none
  selectedDelegation : Option Nat := none
  deriving DecidableEq, Repr

/-- `Interest.getCanBePrefix` (interest.py:146-156). -/
def Interest.canBePrefix (i : Interest) : Bool := i.maxSuffix ≠ some 1

/-- `_encodeSelectors` (tlv_0_2_wire_format.py:929-953). -/
def encodeSelectors (i : Interest) (out : Bytes) : Except Err Bytes := do
  let saveLength := out.length
  let out := if i.mustBeFresh then writeTypeAndLength 18 0 out else out
  let out ← writeOptionalNonNegativeIntegerTlv 17 (i.childSelector.map Int.ofNat) out
  let out := if i.exclude.length > 0 then encodeExclude i.exclude out else out
  let out ← if i.keyLocator.type ≠ none then encodeKeyLocator 15 i.keyLocator out else .ok out
  let out ← writeOptionalNonNegativeIntegerTlv 14 (i.maxSuffix.map Int.ofNat) out
  let out ← writeOptionalNonNegativeIntegerTlv 13 (i.minSuffix.map Int.ofNat) out
  if out.length ≠ saveLength then return writeTypeAndLength 9 (out.length - saveLength) out
  else return out

/-- The four nonce bytes that are written (tlv_0_2_wire_format.py:163-184 and 1461-1482); `rnd` gives
the random bytes. -/
def encodeNonce (nonce : Option Bytes) (rnd : Nat → UInt8) (out : Bytes) : Bytes :=
  let n := nonce.getD []
  if blobSize nonce = 0 then
    writeBlobTlv 10 (some [rnd 0, rnd 1, rnd 2, rnd 3]) out
  else if n.length < 4 then
    writeBlobTlv 10 (some (n ++ ((List.range 4).drop n.length).map rnd)) out
  else if n.length = 4 then
    writeBlobTlv 10 (some n) out
  else
    writeBlobTlv 10 (some (n.take 4)) out

/-- The forwarding hint part of `encodeInterest` (tlv_0_2_wire_format.py:138-150 and 1484-1496). -/
def encodeForwardingHint (i : Interest) (out : Bytes) : Except Err Bytes :=
  if i.forwardingHint.length > 0 then
    if i.selectedDelegation ≠ none then .error .runtime
    else if i.link ≠ none then .error .runtime
    else do
      let save := out.length
      let out ← encodeDelegationSetTo i.forwardingHint out
      return writeTypeAndLength 30 (out.length - save) out
  else .ok out

/-- The end of `encodeInterest` (tlv_0_2_wire_format.py:188-201 and 1503-1516): the name, the outer
type and length, and the begin and end of the signed portion of the name. -/
def encodeInterestTail (name : Name) (out : Bytes) : Bytes × Nat × Nat :=
  let (tempBegin, tempEnd) := encodeNameOffsets name out
  let out := encodeNameTo name out
  let beginFromBack := out.length - tempBegin
  let endFromBack := out.length - tempEnd
  let out := writeTypeAndLength 5 out.length out
  (out, out.length - beginFromBack, out.length - endFromBack)

/-- `_encodeInterestV03` (tlv_0_2_wire_format.py:1433-1516). -/
def encodeInterestV03 (i : Interest) (rnd : Nat → UInt8) : Except Err (Bytes × Nat × Nat) := do
  let out := writeOptionalBlobTlv 36 i.applicationParameters []
  let out ← writeOptionalNonNegativeIntegerTlvFromFloat 12 (i.lifetime.map Int.ofNat) out
  let out := encodeNonce i.nonce rnd out
  let out ← encodeForwardingHint i out
  let out := if i.mustBeFresh then writeTypeAndLength 18 0 out else out
  let out := if i.canBePrefix then writeTypeAndLength 33 0 out else out
  return encodeInterestTail i.name out

/-- `encodeInterest` (tlv_0_2_wire_format.py:103-201). -/
def encodeInterest (i : Interest) (rnd : Nat → UInt8) : Except Err (Bytes × Nat × Nat) :=
  if blobSize i.applicationParameters > 0 then encodeInterestV03 i rnd
  else do
    let out ← encodeForwardingHint i []
    let out ← writeOptionalNonNegativeIntegerTlv 32 (i.selectedDelegation.map Int.ofNat) out
    let out := writeBuffer i.link out
    let out ← writeOptionalNonNegativeIntegerTlvFromFloat 12 (i.lifetime.map Int.ofNat) out
    let out := encodeNonce i.nonce rnd out
    let out ← encodeSelectors i out
    return encodeInterestTail i.name out

/-- The selectors, as a partial Interest. -/
structure Selectors where
  minSuffix : Option Nat := none
  maxSuffix : Option Nat := none
  keyLocator : KeyLocator := {}
  exclude : Exclude := []
  childSelector : Option Nat := none
  mustBeFresh : Bool := false

/-- `_decodeSelectors` (tlv_0_2_wire_format.py:956-984). -/
def decodeSelectors : Dec Selectors := do
  let endOffset ← readNestedTlvsStart 9
  let minSuffix ← readOptionalNonNegativeIntegerTlv 13 endOffset
  let maxSuffix ← readOptionalNonNegativeIntegerTlv 14 endOffset
  let keyLocator ← optionally 15 endOffset (decodeKeyLocator 15) {}
  let exclude ← optionally 16 endOffset decodeExclude []
  let childSelector ← readOptionalNonNegativeIntegerTlv 17 endOffset
  let mustBeFresh ← readBooleanTlv 18 endOffset
  finishNestedTlvs endOffset
  return ⟨minSuffix, maxSuffix, keyLocator, exclude, childSelector, mustBeFresh⟩

/-- The forwarding hint TLV (tlv_0_2_wire_format.py:265-270 and 1555-1560). -/
def decodeForwardingHint : Dec DelegationSet := do
  let e ← readNestedTlvsStart 30
  let fh ← decodeDelegationSetFrom e
  finishNestedTlvs e
  return fh

/-- The bytes of the Link TLV (tlv_0_2_wire_format.py:274-279). -/
def decodeLinkBytes : Dec (Option Bytes) := do
  let linkBeginOffset ← getOffset
  let linkEndOffset ← readNestedTlvsStart 6
  seek linkEndOffset
  let bs ← getSlice linkBeginOffset linkEndOffset
  return some bs

/-- `_decodeInterestV02` (tlv_0_2_wire_format.py:239-297), into the existing object `old`: the
forwarding hint of `old` stays when the packet has none. -/
def decodeInterestV02 (old : Interest) : Dec (Interest × Nat × Nat) := do
  let endOffset ← readNestedTlvsStart 5
  let (name, b, e) ← decodeNameFrom
  let sel ← optionally 9 endOffset decodeSelectors {}
  let nonce ← readBlobTlv 10
  let lifetime ← readOptionalNonNegativeIntegerTlvAsFloat 12 endOffset
  let fh ← optionally 30 endOffset decodeForwardingHint old.forwardingHint
  let link ← optionally 6 endOffset decodeLinkBytes none
  let sd ← readOptionalNonNegativeIntegerTlv 32 endOffset
  if sd ≠ none ∧ link = none then Dec.throw .runtime
  else
    finishNestedTlvs endOffset
    return ({ name := name, minSuffix := sel.minSuffix, maxSuffix := sel.maxSuffix,
              keyLocator := sel.keyLocator, exclude := sel.exclude,
              childSelector := sel.childSelector, mustBeFresh := sel.mustBeFresh,
              nonce := some nonce, lifetime := lifetime, forwardingHint := fh,
              applicationParameters := none, link := link, selectedDelegation := sd }, b, e)

/-- `_decodeInterestV03` (tlv_0_2_wire_format.py:1519-1587).  Every field is overwritten. -/
def decodeInterestV03 : Dec (Interest × Nat × Nat) := do
  let endOffset ← readNestedTlvsStart 5
  let (name, b, e) ← decodeNameFrom
  let canBePrefix ← readBooleanTlv 33 endOffset
  let mustBeFresh ← readBooleanTlv 18 endOffset
  let fh ← optionally 30 endOffset decodeForwardingHint []
  let nonce ← readOptionalBlobTlv 10 endOffset
  let lifetime ← readOptionalNonNegativeIntegerTlvAsFloat 12 endOffset
  let _ ← readOptionalBlobTlv 34 endOffset
  let params ← readOptionalBlobTlv 36 endOffset
  finishNestedTlvs endOffset
  return ({ name := name, maxSuffix := if canBePrefix then none else some 1,
            mustBeFresh := mustBeFresh, nonce := nonce, lifetime := lifetime,
            forwardingHint := fh, applicationParameters := params }, b, e)

/-- `decodeInterest` (tlv_0_2_wire_format.py:203-237): try v0.2, then v0.3; if both fail, raise the
exception of v0.2.  The v0.3 attempt overwrites every field, so what a failed v0.2 attempt left in the
object has no influence. -/
def decodeInterest (old : Interest) (input : Bytes) : Except Err (Interest × Nat × Nat) :=
  match runDec (decodeInterestV02 old) input with
  | .ok r => .ok r
  | .error e =>
    match runDec decodeInterestV03 input with
    | .ok r => .ok r
    | .error _ => .error e

/-! ### Control parameters and responses -/

/-- `RegistrationOptions` (registration_options.py:37-86), without the `origin`, which is not
encoded. -/
structure RegFlags where
  childInherit : Bool := true
  capture : Bool := false
  deriving DecidableEq, Repr

/-- `getNfdForwardingFlags` (registration_options.py:55-70). -/
def RegFlags.toNfd (f : RegFlags) : Nat :=
  (if f.childInherit then 1 else 0) ||| (if f.capture then 2 else 0)

/-- `setNfdForwardingFlags` (registration_options.py:72-86). -/
def RegFlags.ofNfd (n : Nat) : RegFlags := ⟨n &&& 1 ≠ 0, n &&& 2 ≠ 0⟩

/-- `ControlParameters` (control_parameters.py:40-48).  The setters do not replace negative numbers.
The URI is given by its UTF-8 bytes. -/
structure ControlParameters where
  name : Option Name := none
  faceId : Option Int := none
  uri : Bytes := []
  localControlFeature : Option Int := none
  origin : Option Int := none
  cost : Option Int := none
  flags : RegFlags := {}
  strategy : Name := []
  expirationPeriod : Option Int := none
  deriving DecidableEq, Repr

/-- `_encodeControlParameters` (tlv_0_2_wire_format.py:1271-1310). -/
def encodeControlParametersTo (cp : ControlParameters) (out : Bytes) : Except Err Bytes := do
  let saveLength := out.length
  let out ← writeOptionalNonNegativeIntegerTlvFromFloat 109 cp.expirationPeriod out
  let out :=
    if cp.strategy.length > 0 then
      let save := out.length
      let out := encodeNameTo cp.strategy out
      writeTypeAndLength 107 (out.length - save) out
    else out
  let flags := cp.flags.toNfd
  let out ← if flags ≠ RegFlags.toNfd {} then writeNonNegativeIntegerTlv 108 flags out else .ok out
  let out ← writeOptionalNonNegativeIntegerTlv 106 cp.cost out
  let out ← writeOptionalNonNegativeIntegerTlv 111 cp.origin out
  let out ← writeOptionalNonNegativeIntegerTlv 110 cp.localControlFeature out
  let out := if cp.uri.length ≠ 0 then writeBlobTlv 114 (some cp.uri) out else out
  let out ← writeOptionalNonNegativeIntegerTlv 105 cp.faceId out
  let out := match cp.name with | some n => encodeNameTo n out | none => out
  return writeTypeAndLength 104 (out.length - saveLength) out

/-- The name as a new object (tlv_0_2_wire_format.py:1321-1323). -/
def decodeSomeName : Dec (Option Name) := do
  let (n, _, _) ← decodeNameFrom
  return some n

/-- The URI (tlv_0_2_wire_format.py:1332-1335). -/
def decodeUri (endOffset : Nat) : Dec Bytes := do
  let b ← readOptionalBlobTlv 114 endOffset
  Dec.lift (strOfBlob (b.getD []))

/-- The forwarding flags (tlv_0_2_wire_format.py:1360-1363). -/
def decodeFlags : Dec RegFlags := do
  let f ← readNonNegativeIntegerTlv 108
  return RegFlags.ofNfd f

/-- The strategy (tlv_0_2_wire_format.py:1369-1373). -/
def decodeStrategy : Dec Name := do
  let e ← readNestedTlvsStart 107
  let (n, _, _) ← decodeNameFrom
  finishNestedTlvs e
  return n

/-- `_decodeControlParameters` (tlv_0_2_wire_format.py:1313-1380). -/
def decodeControlParametersFrom : Dec ControlParameters := do
  let endOffset ← readNestedTlvsStart 104
  let name ← optionally 7 endOffset decodeSomeName none
  let faceId ← readOptionalNonNegativeIntegerTlv 105 endOffset
  let uri ← optionally 114 endOffset (decodeUri endOffset) []
  skipOptionalTlv 129 endOffset
  let lcf ← readOptionalNonNegativeIntegerTlv 110 endOffset
  let origin ← readOptionalNonNegativeIntegerTlv 111 endOffset
  let cost ← readOptionalNonNegativeIntegerTlv 106 endOffset
  skipOptionalTlv 131 endOffset
  skipOptionalTlv 132 endOffset
  skipOptionalTlv 135 endOffset
  skipOptionalTlv 136 endOffset
  skipOptionalTlv 137 endOffset
  let flags ← optionally 108 endOffset decodeFlags {}
  skipOptionalTlv 112 endOffset
  let strategy ← optionally 107 endOffset decodeStrategy []
  let exp ← readOptionalNonNegativeIntegerTlv 109 endOffset
  finishNestedTlvs endOffset
  return { name := name, faceId := faceId.map Int.ofNat, uri := uri,
           localControlFeature := lcf.map Int.ofNat, origin := origin.map Int.ofNat,
           cost := cost.map Int.ofNat, flags := flags, strategy := strategy,
           expirationPeriod := exp.map fun n => (floatOfNat n : Int) }

/-- `encodeControlParameters` (tlv_0_2_wire_format.py:380-391). -/
def encodeControlParameters (cp : ControlParameters) : Except Err Bytes :=
  encodeControlParametersTo cp []

/-- `decodeControlParameters` (tlv_0_2_wire_format.py:393-408). -/
def decodeControlParameters (input : Bytes) : Except Err ControlParameters :=
  runDec decodeControlParametersFrom input

/-- `ControlResponse` (control_response.py:49-51).  The text is given by its UTF-8 bytes. -/
structure ControlResponse where
  statusCode : Option Int := none
  statusText : Bytes := []
  body : Option ControlParameters := none
  deriving DecidableEq, Repr

/-- `encodeControlResponse` (tlv_0_2_wire_format.py:429-456).  A status code that was never set is
None, and `None < 0` raises TypeError (Python 3). -/
def encodeControlResponse (cr : ControlResponse) : Except Err Bytes := do
  let out ← match cr.body with
    | some cp => encodeControlParametersTo cp []
    | none => .ok []
  let out := writeBlobTlv 103 (some cr.statusText) out
  let out ← match cr.statusCode with
    | some c => writeNonNegativeIntegerTlv 102 c out
    | none => .error .type
  return writeTypeAndLength 101 out.length out

/-- The body (tlv_0_2_wire_format.py:488-491). -/
def decodeBody : Dec (Option ControlParameters) := do
  let cp ← decodeControlParametersFrom
  return some cp

/-- `decodeControlResponse` (tlv_0_2_wire_format.py:458-493). -/
def decodeControlResponseFrom : Dec ControlResponse := do
  let endOffset ← readNestedTlvsStart 101
  let code ← readNonNegativeIntegerTlv 102
  let b ← readBlobTlv 103
  let text ← Dec.lift (strOfBlob b)
  let body ← optionally 104 endOffset decodeBody none
  finishNestedTlvs endOffset
  return ⟨some code, text, body⟩

def decodeControlResponse (input : Bytes) : Except Err ControlResponse :=
  runDec decodeControlResponseFrom input

/-! ### Link-layer packets -/

/-- `NetworkNack` (network_nack.py:26-94): the reason (NONE 0, CONGESTION 50, DUPLICATE 100,
NO_ROUTE 150, OTHER_CODE 0x7fff) and the other reason code. -/
structure NetworkNack where
  reason : Nat := 0
  otherReasonCode : Int := -1
  deriving DecidableEq, Repr

/-- A header field of an `LpPacket` (lp/lp_packet.py). -/
inductive LpHeader where
  | nack (n : NetworkNack)
  | incomingFaceId (id : Nat)
  | congestionMark (m : Nat)
  deriving DecidableEq, Repr

/-- `LpPacket` (lp/lp_packet.py:30-33). -/
structure LpPacket where
  headers : List LpHeader := []
  fragment : Option Bytes := none
  deriving DecidableEq, Repr

/-- The reason made from the decoded code (tlv_0_2_wire_format.py:598-608).  Without a NackReason the
code is None, and `None < 0` raises TypeError (Python 3). -/
def nackOfCode (code : Option Nat) : Except Err NetworkNack :=
  match code with
  | none => .error .type
  | some c =>
    if c = 0 then .ok { reason := 0 }
    else if c = 50 ∨ c = 100 ∨ c = 150 then .ok { reason := c }
    else .ok { reason := 0x7fff, otherReasonCode := c }

/-- `canIgnore` (tlv_0_2_wire_format.py:623-625). -/
def lpCanIgnore (fieldType : Nat) : Bool :=
  800 ≤ fieldType && fieldType ≤ 959 && fieldType &&& 0x03 == 0

/-- The header field branches of the loop of `decodeLpPacket` (tlv_0_2_wire_format.py:592-630). -/
def decodeLpHeader (fieldType fieldLength fieldEndOffset : Nat) (lp : LpPacket) : Dec LpPacket :=
  if fieldType = 800 then do
    let code ← readOptionalNonNegativeIntegerTlv 801 fieldEndOffset
    let nack ← Dec.lift (nackOfCode code)
    return { lp with headers := lp.headers ++ [.nack nack] }
  else if fieldType = 817 then do
    let id ← readNonNegativeInteger fieldLength
    return { lp with headers := lp.headers ++ [.incomingFaceId id] }
  else if fieldType = 832 then do
    let m ← readNonNegativeInteger fieldLength
    return { lp with headers := lp.headers ++ [.congestionMark m] }
  else if !lpCanIgnore fieldType then Dec.throw .value
  else do
    seek fieldEndOffset
    return lp

/-- One pass of the loop of `decodeLpPacket` (tlv_0_2_wire_format.py:577-632); `true` for the
`break`. -/
def decodeLpField (lp : LpPacket) : Dec (LpPacket × Bool) := do
  let fieldType ← readVarNumber
  let fieldLength ← readVarNumber
  let off ← getOffset
  let fieldEndOffset := off + fieldLength
  let len ← inputLen
  if fieldEndOffset > len then Dec.throw .value
  else if fieldType = 80 then do
    let off ← getOffset
    let bs ← getSlice off fieldEndOffset
    seek fieldEndOffset
    return ({ lp with fragment := some bs }, true)
  else do
    let lp ← decodeLpHeader fieldType fieldLength fieldEndOffset lp
    finishNestedTlvs fieldEndOffset
    return (lp, false)

/-- The loop of `decodeLpPacket` (tlv_0_2_wire_format.py:576-632), with the number of bytes left as
fuel; each pass advances, so the fuel never runs out. -/
def decodeLpLoop (endOffset : Nat) : Nat → LpPacket → Dec LpPacket
  | 0, lp => do
    let off ← getOffset
    if off < endOffset then Dec.throw .index else return lp
  | fuel + 1, lp => do
    let off ← getOffset
    if off < endOffset then do
      let (lp, stop) ← decodeLpField lp
      if stop then return lp else decodeLpLoop endOffset fuel lp
    else return lp

/-- `decodeLpPacket` (tlv_0_2_wire_format.py:558-634). -/
def decodeLpPacketFrom : Dec LpPacket := do
  let endOffset ← readNestedTlvsStart 100
  let off ← getOffset
  let lp ← decodeLpLoop endOffset (endOffset - off) {}
  finishNestedTlvs endOffset
  return lp

def decodeLpPacket (input : Bytes) : Except Err LpPacket := runDec decodeLpPacketFrom input

/-- `Node._encodeLpNack` (node.py:711-752), given the wire encoding of the Interest. -/
def encodeLpNack (interest : Bytes) (nack : NetworkNack) : Except Err Bytes := do
  let out := writeBlobTlv 80 (some interest) []
  let reason ←
    if nack.reason = 0 ∨ nack.reason = 50 ∨ nack.reason = 100 ∨ nack.reason = 150 then
      (.ok (nack.reason : Int) : Except Err Int)
    else if nack.reason = 0x7fff then .ok nack.otherReasonCode
    else .error .runtime
  let nackSaveLength := out.length
  let out ← writeNonNegativeIntegerTlv 801 reason out
  let out := writeTypeAndLength 800 (out.length - nackSaveLength) out
  return writeTypeAndLength 100 (out.length - 0) out

/-- `NetworkNack.getFirstHeader` (network_nack.py:97-111). -/
def LpPacket.firstNack (lp : LpPacket) : Option NetworkNack :=
  lp.headers.findSome? fun h => match h with | .nack n => some n | _ => none

/-- `IncomingFaceId.getFirstHeader` (lp/incoming_face_id.py:49-63). -/
def LpPacket.firstIncomingFaceId (lp : LpPacket) : Option Nat :=
  lp.headers.findSome? fun h => match h with | .incomingFaceId n => some n | _ => none

/-- `CongestionMark.getFirstHeader` (lp/congestion_mark.py:48-62). -/
def LpPacket.firstCongestionMark (lp : LpPacket) : Option Nat :=
  lp.headers.findSome? fun h => match h with | .congestionMark n => some n | _ => none

end PyNDN
