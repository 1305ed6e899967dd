import Verif.Model.Encoder
import Verif.Model.Decoder
/-
Model of `ProtobufTlv` (encoding/protobuf_tlv.py).  A protobuf message object is modelled by its field values in the order of its
descriptor: for each field the list of its values, where a field that is not repeated has no value (`HasField` is false) or one.
A message type is a number; the schema gives the fields of each message type, so that recursive types are included.
What is assumed of the protobuf library (not part of the repository): assigning an integer outside the range of a uint32 field or an
unknown enum value raises ValueError; reading a sub-message that is absent gives an empty message which becomes present in its parent
when one of its own fields is set or appended to (proto2).
-/
namespace PyNDN.Protobuf

/-- `field.type`. -/
inductive FieldType where
  | uint32
  | uint64
  | enum (values : List Int)
  | bytes
  | string
  | bool
  | message (k : Nat)
  | other
  deriving DecidableEq

/-- `field.label`. -/
inductive Label where
  | optional
  | required
  | repeated
  deriving DecidableEq

/-- A field descriptor: `field.number`, `field.type`, `field.label`. -/
structure Field where
  number : Nat
  type : FieldType
  label : Label
  deriving DecidableEq

/-- `message.DESCRIPTOR.fields` of each message type. -/
abbrev Schema := Nat → List Field

/-- A value.  A `str` is the list of its code points. -/
inductive Value where
  | int (n : Int)
  | bytes (b : Bytes)
  | text (s : List Nat)
  | bool (b : Bool)
  | msg (fields : List (List Value))

/-- `str.encode('utf-8')` of one code point (Common.stringToUtf8Array, util/common.py:117-143). -/
def utf8Encode (c : Nat) : Bytes :=
  if c < 0x80 then [UInt8.ofNat c]
  else if c < 0x800 then [UInt8.ofNat (0xc0 + c / 64), UInt8.ofNat (0x80 + c % 64)]
  else if c < 0x10000 then
    [UInt8.ofNat (0xe0 + c / 4096), UInt8.ofNat (0x80 + c / 64 % 64), UInt8.ofNat (0x80 + c % 64)]
  else
    [UInt8.ofNat (0xf0 + c / 262144), UInt8.ofNat (0x80 + c / 4096 % 64), UInt8.ofNat (0x80 + c / 64 % 64),
     UInt8.ofNat (0x80 + c % 64)]

mutual
/-- The encoding of one value (protobuf_tlv.py:114-137).  A value that is not of the type of the field, which the protobuf library
does not allow, is a TypeError. -/
def encodeValue (S : Schema) (f : Field) (v : Value) (out : Bytes) : Except Err Bytes :=
  match f.type, v with
  | .message k, .msg fields => do
    let saveLength := out.length
    let out ← encodeMessageValue S (S k) fields out
    return writeTypeAndLength f.number (out.length - saveLength) out
  | .uint32, .int n => writeNonNegativeIntegerTlv f.number n out
  | .uint64, .int n => writeNonNegativeIntegerTlv f.number n out
  | .enum _, .int n =>
    if n < 0 then .error .runtime else writeNonNegativeIntegerTlv f.number n out
  | .bytes, .bytes b => .ok (writeBlobTlv f.number (some b) out)
  | .string, .text s => .ok (writeBlobTlv f.number (some (s.flatMap utf8Encode)) out)
  | .bool, .bool b => if b then .ok (writeTypeAndLength f.number 0 out) else .ok out
  | .other, _ => .error .runtime
  | _, _ => .error .type

/-- The loop over the values of a field, from the last to the first (protobuf_tlv.py:104-114). -/
def encodeValues (S : Schema) (f : Field) (values : List Value) (out : Bytes) : Except Err Bytes :=
  match values with
  | [] => .ok out
  | v :: vs => do
    let out ← encodeValues S f vs out
    encodeValue S f v out

/-- `_encodeMessageValue` (protobuf_tlv.py:96-137): the fields from the last to the first. -/
def encodeMessageValue (S : Schema) (fs : List Field) (fields : List (List Value)) (out : Bytes) : Except Err Bytes :=
  match fs, fields with
  | f :: fs, vs :: fields => do
    let out ← encodeMessageValue S fs fields out
    encodeValues S f vs out
  | _, _ => .ok out
end

mutual
/-- `IsInitialized` of a sub-message value. -/
def initializedValue (S : Schema) (f : Field) (v : Value) : Bool :=
  match f.type, v with
  | .message k, .msg fields => initialized S (S k) fields
  | _, _ => true

/-- `IsInitialized` of the values of a field. -/
def initializedValues (S : Schema) (f : Field) (values : List Value) : Bool :=
  match values with
  | [] => true
  | v :: vs => initializedValue S f v && initializedValues S f vs

/-- `message.IsInitialized()`: every required field is set, also in the sub-messages. -/
def initialized (S : Schema) (fs : List Field) (fields : List (List Value)) : Bool :=
  match fs, fields with
  | f :: fs, vs :: fields =>
    (f.label != .required || !vs.isEmpty) && initializedValues S f vs && initialized S fs fields
  | _, _ => true
end

/-- `ProtobufTlv.encode` (protobuf_tlv.py:42-58) of a message of the type `k`. -/
def encode (S : Schema) (k : Nat) (fields : List (List Value)) : Except Err Bytes :=
  if initialized S (S k) fields then encodeMessageValue S (S k) fields [] else .error .runtime

/-- `_decodeFieldValue` (protobuf_tlv.py:173-196, Python 3) with the check that the protobuf library makes when the value is
assigned or appended. -/
def decodeFieldValue (f : Field) (endOffset : Nat) : Dec Value :=
  match f.type with
  | .uint32 => do
    let n ← readNonNegativeIntegerTlv f.number
    if n < 2 ^ 32 then return .int n else Dec.throw .value
  | .uint64 => do return .int (← readNonNegativeIntegerTlv f.number)
  | .enum values => do
    let n ← readNonNegativeIntegerTlv f.number
    if values.contains (n : Int) then return .int n else Dec.throw .value
  | .bytes => do return .bytes (← readBlobTlv f.number)
  | .string => do return .text ((← readBlobTlv f.number).map fun b => b.toNat)
  | .bool => do return .bool (← readBooleanTlv f.number endOffset)
  | _ => Dec.throw .runtime

/-- The fields of a new message. -/
def fresh (fs : List Field) : List (List Value) := fs.map fun _ => []

/-- The fields of the present value of a sub-message field, or of a new one. -/
def childOf (fs : List Field) : List Value → List (List Value)
  | .msg fields :: _ => fields
  | _ => fresh fs

/-- The loop over a repeated field (protobuf_tlv.py:151-160), where `read` reads one value.  Each pass reads at least two bytes, so
`endOffset - offset` passes suffice. -/
def repeatLoop (read : Dec Value) (number endOffset : Nat) : Nat → List Value → Dec (List Value)
  | 0, acc => do
    if ← peekType number endOffset then Dec.throw .index else return acc
  | fuel + 1, acc => do
    if ← peekType number endOffset then
      let v ← read
      repeatLoop read number endOffset fuel (acc ++ [v])
    else return acc

/-- One pass of the loop of `_decodeMessageValue` (protobuf_tlv.py:143-171): the new values of the field.  `nested` is
`_decodeMessageValue` for a sub-message. -/
def decodeField (S : Schema) (nested : List Field → List (List Value) → Nat → Dec (List (List Value))) (f : Field)
    (old : List Value) (endOffset : Nat) : Dec (List Value) := do
  if f.label = .optional then
    if !(← peekType f.number endOffset) then return old
  if f.label = .repeated then
    let off ← getOffset
    let read : Dec Value := match f.type with
      | .message k => do
        let innerEndOffset ← readNestedTlvsStart f.number
        let fields ← nested (S k) (fresh (S k)) innerEndOffset
        finishNestedTlvs innerEndOffset
        return .msg fields
      | _ => decodeFieldValue f endOffset
    repeatLoop read f.number endOffset (endOffset - off) old
  else
    match f.type with
    | .message k =>
      let innerEndOffset ← readNestedTlvsStart f.number
      let fields ← nested (S k) (childOf (S k) old) innerEndOffset
      finishNestedTlvs innerEndOffset
      if old.isEmpty && fields.all List.isEmpty then return [] else return [.msg fields]
    | _ => do return [← decodeFieldValue f endOffset]

/-- The loop of `_decodeMessageValue` (protobuf_tlv.py:143-171).  A field that the list does not reach has no values. -/
def decodeFields (S : Schema) (nested : List Field → List (List Value) → Nat → Dec (List (List Value))) :
    List Field → List (List Value) → Nat → Dec (List (List Value))
  | f :: fs, olds, endOffset => do
    let vs ← decodeField S nested f (olds.headD []) endOffset
    let rest ← decodeFields S nested fs olds.tail endOffset
    return vs :: rest
  | [], _, _ => return []

/-- `_decodeMessageValue` (protobuf_tlv.py:139-171) with a bound on the depth: a sub-message is at least two bytes shorter than the
message that holds it, so the length of the input suffices.  Simplification: Python's limit of the recursion depth is not modelled. -/
def decodeMessageValue (S : Schema) : Nat → List Field → List (List Value) → Nat → Dec (List (List Value))
  | 0 => fun _ _ _ => Dec.throw .runtime
  | fuel + 1 => decodeFields S (decodeMessageValue S fuel)

/-- `ProtobufTlv.decode` (protobuf_tlv.py:60-74) into a message of the type `k` which has the fields `old`. -/
def decode (S : Schema) (k : Nat) (old : List (List Value)) (input : Bytes) : Except Err (List (List Value)) :=
  ((decodeMessageValue S (input.length + 1) (S k) old input.length).run input 0).map Prod.fst

end PyNDN.Protobuf
