import Verif.Model.Basic
/-
Model of `DynamicByteArray` (util/dynamic_byte_array.py) and `TlvEncoder`
(encoding/tlv/tlv_encoder.py).

Two levels.  `LowEnc` models the class with its real buffer and capacity.  The functions
`writeVarNumber`, ... on `Bytes` are the same writes on the string of bytes written so far
(`getOutput()`).  `Props/Encoder.lean` proves that the first refines the second, and the wire
format models use the second.
-/
namespace PyNDN

/-! ### High level: the bytes written so far (written backwards, so a write prepends) -/

/-- The bytes that `TlvEncoder.writeVarNumber` stores at the front (tlv_encoder.py:52-89).
Python has unbounded ints, so a number above 2^64 is silently masked to its low 8 bytes. -/
def varNumberBytes (n : Nat) : Bytes :=
  if n < 253 then
    [byteAtShift n 0]
  else if n ≤ 0xffff then
    [253, byteAtShift n 8, byteAtShift n 0]
  else if n ≤ 0xffffffff then
    [254, byteAtShift n 24, byteAtShift n 16, byteAtShift n 8, byteAtShift n 0]
  else
    [255, byteAtShift n 56, byteAtShift n 48, byteAtShift n 40, byteAtShift n 32,
     byteAtShift n 24, byteAtShift n 16, byteAtShift n 8, byteAtShift n 0]

/-- The bytes that `TlvEncoder.writeNonNegativeInteger` stores for a value that passed the
`value < 0` check (tlv_encoder.py:114-140). -/
def nonNegIntBytes (n : Nat) : Bytes :=
  if n ≤ 0xff then
    [byteAtShift n 0]
  else if n ≤ 0xffff then
    [byteAtShift n 8, byteAtShift n 0]
  else if n ≤ 0xffffffff then
    [byteAtShift n 24, byteAtShift n 16, byteAtShift n 8, byteAtShift n 0]
  else
    [byteAtShift n 56, byteAtShift n 48, byteAtShift n 40, byteAtShift n 32,
     byteAtShift n 24, byteAtShift n 16, byteAtShift n 8, byteAtShift n 0]

/-- `TlvEncoder.writeVarNumber` (tlv_encoder.py:52-89). -/
def writeVarNumber (n : Nat) (out : Bytes) : Bytes := varNumberBytes n ++ out

/-- `TlvEncoder.writeTypeAndLength` (tlv_encoder.py:91-102): writes the length, then the type in
front of it. -/
def writeTypeAndLength (type length : Nat) (out : Bytes) : Bytes :=
  let out := writeVarNumber length out
  writeVarNumber type out

/-- `TlvEncoder.writeNonNegativeInteger` (tlv_encoder.py:104-140). -/
def writeNonNegativeInteger (value : Int) (out : Bytes) : Except Err Bytes :=
  if value < 0 then .error .value
  else .ok (nonNegIntBytes value.toNat ++ out)

/-- `TlvEncoder.writeNonNegativeIntegerTlv` (tlv_encoder.py:142-154). -/
def writeNonNegativeIntegerTlv (type : Nat) (value : Int) (out : Bytes) : Except Err Bytes := do
  let saveNBytes := out.length
  let out ← writeNonNegativeInteger value out
  return writeTypeAndLength type (out.length - saveNBytes) out

/-- `TlvEncoder.writeOptionalNonNegativeIntegerTlv` (tlv_encoder.py:156-166). -/
def writeOptionalNonNegativeIntegerTlv (type : Nat) (value : Option Int) (out : Bytes) :
    Except Err Bytes :=
  match value with
  | none => .ok out
  | some v => if v ≥ 0 then writeNonNegativeIntegerTlv type v out else .ok out

/-- `TlvEncoder.writeBuffer` (tlv_encoder.py:182-195); `none` is a Python `None`. -/
def writeBuffer (buffer : Option Bytes) (out : Bytes) : Bytes :=
  match buffer with
  | none => out
  | some b => b ++ out

/-- `TlvEncoder.writeBlobTlv` (tlv_encoder.py:197-214). -/
def writeBlobTlv (type : Nat) (value : Option Bytes) (out : Bytes) : Bytes :=
  match value with
  | none => writeTypeAndLength type 0 out
  | some b =>
    let out := writeBuffer (some b) out
    writeTypeAndLength type b.length out

/-- `TlvEncoder.writeOptionalBlobTlv` (tlv_encoder.py:216-227). -/
def writeOptionalBlobTlv (type : Nat) (value : Option Bytes) (out : Bytes) : Bytes :=
  match value with
  | none => out
  | some b => if b.length > 0 then writeBlobTlv type (some b) out else out

/-! ### Low level: the class with its buffer -/

/-- `DynamicByteArray._array` (util/dynamic_byte_array.py:34-35). -/
abbrev DynArray := Bytes

/-- Python slice assignment `a[start:start+len(v)] = v` for `start ≤ len(a)`: the slice is
replaced by `v` (Python clips the slice end at `len(a)`, so the array may grow). -/
def sliceAssign (a : Bytes) (start : Nat) (v : Bytes) : Bytes :=
  a.take start ++ v ++ a.drop (start + v.length)

/-- Python slice assignment `newArray[-k:] = v` where `v` has `k` bytes.  For `k = 0` Python
reads `newArray[-0:]` as `newArray[0:]`, so the whole array is replaced by the empty `v`. -/
def assignBack (newArray : Bytes) (v : Bytes) : Bytes :=
  if v.length = 0 then v
  else newArray.take (newArray.length - v.length) ++ v

/-- `DynamicByteArray.ensureLengthFromBack` (dynamic_byte_array.py:76-95). -/
def ensureLengthFromBack (a : DynArray) (length : Nat) : DynArray :=
  if a.length ≥ length then a
  else
    let newLength := a.length * 2
    let newLength := if length > newLength then length else newLength
    let newArray : Bytes := List.replicate newLength 0
    assignBack newArray a

/-- `DynamicByteArray.copyFromBack` (dynamic_byte_array.py:97-115). -/
def copyFromBack (a : DynArray) (value : Bytes) (offsetFromBack : Nat) : DynArray :=
  let a := ensureLengthFromBack a offsetFromBack
  let startIndex := a.length - offsetFromBack
  sliceAssign a startIndex value

/-- `DynamicByteArray.ensureLength` (dynamic_byte_array.py:37-56). -/
def ensureLength (a : DynArray) (length : Nat) : DynArray :=
  if a.length ≥ length then a
  else
    let newLength := a.length * 2
    let newLength := if length > newLength then length else newLength
    let newArray : Bytes := List.replicate newLength 0
    sliceAssign newArray 0 a

/-- `DynamicByteArray.copy` (dynamic_byte_array.py:58-74). -/
def dynCopy (a : DynArray) (value : Bytes) (offset : Nat) : DynArray :=
  let a := ensureLength a (offset + value.length)
  sliceAssign a offset value

/-- `TlvEncoder` (tlv_encoder.py:29-40): the buffer and the number of bytes written to its back. -/
structure LowEnc where
  array : DynArray
  length : Nat
  deriving Repr

/-- `TlvEncoder.__init__` (tlv_encoder.py:36-40). -/
def LowEnc.new (initialCapacity : Nat) : LowEnc := ⟨List.replicate initialCapacity 0, 0⟩

/-- `self._output._array[-k] = b` (a Python negative index; raises IndexError when out of range,
in particular for `k > len`). Only used with `k ≥ 1`. -/
def setBack (a : Bytes) (k : Nat) (b : UInt8) : Except Err Bytes :=
  if k ≤ a.length ∧ k ≠ 0 then .ok (a.set (a.length - k) b) else .error .index

/-- Consecutive stores `array[-length] = b0; array[-length+1] = b1; ...` as in
tlv_encoder.py:62-89. -/
def storeFront (a : Bytes) (length : Nat) : Bytes → Except Err Bytes
  | [] => .ok a
  | b :: bs => do
    let a ← setBack a length b
    storeFront a (length - 1) bs

/-- `self._length += n; self._output.ensureLengthFromBack(self._length)`, then the stores. -/
def LowEnc.put (e : LowEnc) (bs : Bytes) : Except Err LowEnc := do
  let length := e.length + bs.length
  let a := ensureLengthFromBack e.array length
  let a ← storeFront a length bs
  return ⟨a, length⟩

/-- `TlvEncoder.writeVarNumber` on the buffer (tlv_encoder.py:52-89). -/
def LowEnc.writeVarNumber (e : LowEnc) (n : Nat) : Except Err LowEnc := e.put (varNumberBytes n)

/-- `TlvEncoder.writeTypeAndLength` (tlv_encoder.py:91-102). -/
def LowEnc.writeTypeAndLength (e : LowEnc) (type length : Nat) : Except Err LowEnc := do
  let e ← e.writeVarNumber length
  e.writeVarNumber type

/-- `TlvEncoder.writeNonNegativeInteger` (tlv_encoder.py:104-140). -/
def LowEnc.writeNonNegativeInteger (e : LowEnc) (value : Int) : Except Err LowEnc :=
  if value < 0 then .error .value else e.put (nonNegIntBytes value.toNat)

/-- `TlvEncoder.writeNonNegativeIntegerTlv` (tlv_encoder.py:142-154). -/
def LowEnc.writeNonNegativeIntegerTlv (e : LowEnc) (type : Nat) (value : Int) :
    Except Err LowEnc := do
  let saveNBytes := e.length
  let e ← e.writeNonNegativeInteger value
  e.writeTypeAndLength type (e.length - saveNBytes)

/-- `TlvEncoder.writeOptionalNonNegativeIntegerTlv` (tlv_encoder.py:156-166). -/
def LowEnc.writeOptionalNonNegativeIntegerTlv (e : LowEnc) (type : Nat) (value : Option Int) :
    Except Err LowEnc :=
  match value with
  | none => .ok e
  | some v => if v ≥ 0 then e.writeNonNegativeIntegerTlv type v else .ok e

/-- `TlvEncoder.writeBuffer` (tlv_encoder.py:182-195). -/
def LowEnc.writeBuffer (e : LowEnc) (buffer : Option Bytes) : LowEnc :=
  match buffer with
  | none => e
  | some b =>
    let length := e.length + b.length
    ⟨copyFromBack e.array b length, length⟩

/-- `TlvEncoder.writeBlobTlv` (tlv_encoder.py:197-214). -/
def LowEnc.writeBlobTlv (e : LowEnc) (type : Nat) (value : Option Bytes) : Except Err LowEnc :=
  match value with
  | none => e.writeTypeAndLength type 0
  | some b => (e.writeBuffer (some b)).writeTypeAndLength type b.length

/-- `TlvEncoder.writeOptionalBlobTlv` (tlv_encoder.py:216-227). -/
def LowEnc.writeOptionalBlobTlv (e : LowEnc) (type : Nat) (value : Option Bytes) :
    Except Err LowEnc :=
  match value with
  | none => .ok e
  | some b => if b.length > 0 then e.writeBlobTlv type (some b) else .ok e

/-- `TlvEncoder.getOutput` (tlv_encoder.py:229-238): the slice `[len - length:]`. -/
def LowEnc.getOutput (e : LowEnc) : Bytes := e.array.drop (e.array.length - e.length)

end PyNDN
