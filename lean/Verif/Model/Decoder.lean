import Verif.Model.Basic
/-
Model of `TlvDecoder` (encoding/tlv/tlv_decoder.py).
-/
namespace PyNDN

/-- A decoding action: takes the input and `self._offset`, and returns a result and the new offset,
or the exception raised (tlv_decoder.py:27-39).  The decoder object is not used after an exception
anywhere in the code base, so the offset at the point of the exception is not recorded. -/
structure Dec (α : Type) where
  run : Bytes → Nat → Except Err (α × Nat)

@[inline] def Dec.ret (a : α) : Dec α := ⟨fun _ off => .ok (a, off)⟩

@[inline] def Dec.andThen (m : Dec α) (f : α → Dec β) : Dec β := ⟨fun inp off =>
  match m.run inp off with
  | .ok (a, off') => (f a).run inp off'
  | .error e => .error e⟩

instance : Monad Dec where
  pure := Dec.ret
  bind := Dec.andThen

/-- `raise` inside a decoding function. -/
def Dec.throw (e : Err) : Dec α := ⟨fun _ _ => .error e⟩

/-- `TlvDecoder.getOffset` (tlv_decoder.py:381-388). -/
def getOffset : Dec Nat := ⟨fun _ off => .ok (off, off)⟩

/-- `TlvDecoder.seek` (tlv_decoder.py:390-396). -/
def seek (offset : Nat) : Dec Unit := ⟨fun _ _ => .ok ((), offset)⟩

/-- `len(self._input)`. -/
def inputLen : Dec Nat := ⟨fun inp off => .ok (inp.length, off)⟩

/-- `self._input[self._offset + i]`, which raises IndexError past the end. -/
def peekByte (i : Nat) : Dec Nat := ⟨fun inp off =>
  match inp[off + i]? with
  | some b => .ok (b.toNat, off)
  | none => .error .index⟩

/-- `self._offset += n`. -/
def advance (n : Nat) : Dec Unit := ⟨fun _ off => .ok ((), off + n)⟩

/-- `try: m except IndexError: raise ValueError(...)` (tlv_decoder.py:48-57, 208-234). -/
def catchIndex (m : Dec α) : Dec α := ⟨fun inp off =>
  match m.run inp off with
  | .ok r => .ok r
  | .error e => .error (if e = .index then .value else e)⟩

/-- `TlvDecoder.readExtendedVarNumber` (tlv_decoder.py:59-91). -/
def readExtendedVarNumber (firstOctet : Nat) : Dec Nat := do
  if firstOctet = 253 then
    let b0 ← peekByte 0
    let b1 ← peekByte 1
    advance 2
    return (b0 <<< 8) + b1
  else if firstOctet = 254 then
    let b0 ← peekByte 0
    let b1 ← peekByte 1
    let b2 ← peekByte 2
    let b3 ← peekByte 3
    advance 4
    return (b0 <<< 24) + (b1 <<< 16) + (b2 <<< 8) + b3
  else
    let b0 ← peekByte 0
    let b1 ← peekByte 1
    let b2 ← peekByte 2
    let b3 ← peekByte 3
    let b4 ← peekByte 4
    let b5 ← peekByte 5
    let b6 ← peekByte 6
    let b7 ← peekByte 7
    advance 8
    return (b0 <<< 56) + (b1 <<< 48) + (b2 <<< 40) + (b3 <<< 32) +
           (b4 <<< 24) + (b5 <<< 16) + (b6 <<< 8) + b7

/-- `TlvDecoder.readVarNumber` (tlv_decoder.py:41-57). -/
def readVarNumber : Dec Nat := catchIndex do
  let firstOctet ← peekByte 0
  advance 1
  if firstOctet < 253 then
    return firstOctet
  else
    readExtendedVarNumber firstOctet

/-- `TlvDecoder.readTypeAndLength` (tlv_decoder.py:93-114). -/
def readTypeAndLength (expectedType : Nat) : Dec Nat := do
  let type ← readVarNumber
  if type ≠ expectedType then
    Dec.throw .value
  else
    let length ← readVarNumber
    let off ← getOffset
    let len ← inputLen
    if off + length > len then
      Dec.throw .value
    else
      return length

/-- `TlvDecoder.readNestedTlvsStart` (tlv_decoder.py:116-131). -/
def readNestedTlvsStart (expectedType : Nat) : Dec Nat := do
  let length ← readTypeAndLength expectedType
  let off ← getOffset
  return length + off

/-- The test at tlv_decoder.py:157. -/
def isCritical (type : Nat) : Bool := type ≤ 31 || type &&& 1 == 1

/-- One pass of the loop body of `finishNestedTlvs` (tlv_decoder.py:155-166). -/
def skipUnrecognized (skipCritical : Bool) : Dec Unit := do
  let type ← readVarNumber
  if isCritical type && !skipCritical then
    Dec.throw .value
  else
    let length ← readVarNumber
    advance length
    let off ← getOffset
    let len ← inputLen
    if off > len then Dec.throw .value else return ()

/-- The loop of `finishNestedTlvs` (tlv_decoder.py:154-166): repeat while `offset < endOffset`.
Each pass advances the offset, so `endOffset - offset` passes suffice; the fuel never runs out
(`finishLoop_fuel` in Lemmas/Decoder.lean), and a pass that did not advance would be reported as
the error `index`, which is proved unreachable. -/
def finishLoop (endOffset : Nat) (skipCritical : Bool) : Nat → Dec Unit
  | 0 => do
    let off ← getOffset
    if off < endOffset then Dec.throw .index else return ()
  | fuel + 1 => do
    let off ← getOffset
    if off < endOffset then
      skipUnrecognized skipCritical
      finishLoop endOffset skipCritical fuel
    else return ()

/-- `TlvDecoder.finishNestedTlvs` (tlv_decoder.py:133-170). -/
def finishNestedTlvs (endOffset : Nat) (skipCritical : Bool := false) : Dec Unit := do
  let off ← getOffset
  if off = endOffset then
    return ()
  else
    finishLoop endOffset skipCritical (endOffset - off)
    let off ← getOffset
    if off ≠ endOffset then Dec.throw .value else return ()

/-- `TlvDecoder.peekType` (tlv_decoder.py:172-195). -/
def peekType (expectedType endOffset : Nat) : Dec Bool := do
  let off ← getOffset
  if off ≥ endOffset then
    return false
  else
    let saveOffset := off
    let type ← readVarNumber
    seek saveOffset
    return (type == expectedType)

/-- `TlvDecoder.readNonNegativeInteger` (tlv_decoder.py:197-234). -/
def readNonNegativeInteger (length : Nat) : Dec Nat := catchIndex do
  if length = 1 then
    let b0 ← peekByte 0
    advance length
    return b0
  else if length = 2 then
    let b0 ← peekByte 0
    let b1 ← peekByte 1
    advance length
    return (b0 <<< 8) + b1
  else if length = 4 then
    let b0 ← peekByte 0
    let b1 ← peekByte 1
    let b2 ← peekByte 2
    let b3 ← peekByte 3
    advance length
    return (b0 <<< 24) + (b1 <<< 16) + (b2 <<< 8) + b3
  else if length = 8 then
    let b0 ← peekByte 0
    let b1 ← peekByte 1
    let b2 ← peekByte 2
    let b3 ← peekByte 3
    let b4 ← peekByte 4
    let b5 ← peekByte 5
    let b6 ← peekByte 6
    let b7 ← peekByte 7
    advance length
    return (b0 <<< 56) + (b1 <<< 48) + (b2 <<< 40) + (b3 <<< 32) +
           (b4 <<< 24) + (b5 <<< 16) + (b6 <<< 8) + b7
  else
    Dec.throw .value

/-- `TlvDecoder.readNonNegativeIntegerTlv` (tlv_decoder.py:236-249). -/
def readNonNegativeIntegerTlv (expectedType : Nat) : Dec Nat := do
  let length ← readTypeAndLength expectedType
  readNonNegativeInteger length

/-- `TlvDecoder.readOptionalNonNegativeIntegerTlv` (tlv_decoder.py:251-268).  The `AsFloat` variant
(lines 270-290) is the same up to the conversion to float, which is not modelled. -/
def readOptionalNonNegativeIntegerTlv (expectedType endOffset : Nat) : Dec (Option Nat) := do
  if ← peekType expectedType endOffset then
    let v ← readNonNegativeIntegerTlv expectedType
    return some v
  else
    return none

/-- `TlvDecoder.getSlice` (tlv_decoder.py:398-411). -/
def getSlice (beginOffset endOffset : Nat) : Dec Bytes := ⟨fun inp off =>
  .ok ((inp.take endOffset).drop beginOffset, off)⟩

/-- `TlvDecoder.readBlobTlv` (tlv_decoder.py:292-311). -/
def readBlobTlv (expectedType : Nat) : Dec Bytes := do
  let length ← readTypeAndLength expectedType
  let off ← getOffset
  let result ← getSlice off (off + length)
  advance length
  return result

/-- `TlvDecoder.readOptionalBlobTlv` (tlv_decoder.py:313-332). -/
def readOptionalBlobTlv (expectedType endOffset : Nat) : Dec (Option Bytes) := do
  if ← peekType expectedType endOffset then
    let v ← readBlobTlv expectedType
    return some v
  else
    return none

/-- `TlvDecoder.readBooleanTlv` (tlv_decoder.py:334-354). -/
def readBooleanTlv (expectedType endOffset : Nat) : Dec Bool := do
  if ← peekType expectedType endOffset then
    let length ← readTypeAndLength expectedType
    advance length
    return true
  else
    return false

/-- `TlvDecoder.skipTlv` (tlv_decoder.py:356-367). -/
def skipTlv (expectedType : Nat) : Dec Unit := do
  let length ← readTypeAndLength expectedType
  advance length

/-- `TlvDecoder.skipOptionalTlv` (tlv_decoder.py:369-379). -/
def skipOptionalTlv (expectedType endOffset : Nat) : Dec Unit := do
  if ← peekType expectedType endOffset then
    skipTlv expectedType
  else
    return ()

end PyNDN
