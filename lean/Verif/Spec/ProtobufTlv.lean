import Verif.Model.ProtobufTlv
import Verif.Spec.Packet
/-
Specification of the NDN-TLV form of a protobuf message, and of what a reader gets from it.  Only the types of descriptors and
values come from the model.
-/
namespace PyNDN.Spec.Protobuf
open _root_.PyNDN.Protobuf (Schema Field FieldType Label Value)

mutual
/-- The TLVs of one value: one TLV whose type is the field number; a boolean is a TLV with an empty value for true and nothing for
false; a sub-message is the sequence of its TLVs. -/
def valueTlvs (S : Schema) (f : Field) (v : Value) : List (Nat × List UInt8) :=
  match v with
  | .int n => [(f.number, nonNeg n.toNat)]
  | .bytes b => [(f.number, b)]
  | .text s => [(f.number, s.flatMap utf8)]
  | .bool b => opt f.number (if b then some [] else none)
  | .msg fields =>
    match f.type with
    | .message k => [(f.number, flat (messageTlvs S (S k) fields))]
    | _ => []

/-- The TLVs of the values of a field, in order. -/
def valuesTlvs (S : Schema) (f : Field) (values : List Value) : List (Nat × List UInt8) :=
  match values with
  | [] => []
  | v :: vs => valueTlvs S f v ++ valuesTlvs S f vs

/-- The TLVs of a message: the fields in the order of the descriptor. -/
def messageTlvs (S : Schema) (fs : List Field) (fields : List (List Value)) : List (Nat × List UInt8) :=
  match fs, fields with
  | f :: fs, vs :: fields => valuesTlvs S f vs ++ messageTlvs S fs fields
  | _, _ => []
end

/-- The number of values that a field of a complete message may have. -/
def Count (l : Label) (n : Nat) : Prop :=
  match l with
  | .required => n = 1
  | .optional => n ≤ 1
  | .repeated => True

mutual
/-- The value is of the type of the field; enum values are not negative. -/
def FitsValue (S : Schema) (f : Field) (v : Value) : Prop :=
  match v with
  | .int n => (f.type = .uint32 ∧ 0 ≤ n ∧ n < 2 ^ 32) ∨ (f.type = .uint64 ∧ 0 ≤ n ∧ n < 2 ^ 64) ∨
      (∃ values, f.type = .enum values ∧ n ∈ values ∧ 0 ≤ n ∧ n < 2 ^ 31)
  | .bytes _ => f.type = .bytes
  | .text s => f.type = .string ∧ ∀ c ∈ s, Scalar c
  | .bool _ => f.type = .bool
  | .msg fields =>
    match f.type with
    | .message k => Fits S (S k) fields
    | _ => False

/-- All values of a field. -/
def FitsValues (S : Schema) (f : Field) (values : List Value) : Prop :=
  match values with
  | [] => True
  | v :: vs => FitsValue S f v ∧ FitsValues S f vs

/-- A complete message of the given fields. -/
def Fits (S : Schema) (fs : List Field) (fields : List (List Value)) : Prop :=
  match fs, fields with
  | f :: fs, vs :: fields => Count f.label vs.length ∧ FitsValues S f vs ∧ Fits S fs fields
  | [], [] => True
  | _, _ => False
end

/-- The numbers of the fields of every message type are different and can be a TLV type. -/
def SchemaOk (S : Schema) : Prop :=
  ∀ k, ((S k).map fun f => f.number).Nodup ∧ ∀ f ∈ S k, f.number < 2 ^ 64

/-- The fields of the sub-message that is present, if any. -/
def present : List Value → List (List Value)
  | .msg fields :: _ => fields
  | _ => []

mutual
/-- What is appended to a repeated field for a value that was written: false is not written; a string is read byte by byte. -/
def readItem (S : Schema) (f : Field) (v : Value) : List Value :=
  match v with
  | .bool false => []
  | .bool true => [.bool true]
  | .text s => [.text ((s.flatMap utf8).map fun b => b.toNat)]
  | .int n => [.int n]
  | .bytes b => [.bytes b]
  | .msg fields =>
    match f.type with
    | .message k => [.msg (readMessage S (S k) [] fields)]
    | _ => []

/-- What is appended to a repeated field for the values that were written. -/
def readItems (S : Schema) (f : Field) (values : List Value) : List Value :=
  match values with
  | [] => []
  | v :: vs => readItem S f v ++ readItems S f vs

/-- The new value of a field that is not repeated, which had the values `old`.  False is read as false only in a required field.  A
sub-message updates the one that is present; if none was present and nothing is read, none is present afterwards. -/
def readSingle (S : Schema) (f : Field) (old : List Value) (v : Value) : List Value :=
  match v with
  | .bool true => [.bool true]
  | .bool false => if f.label = .required then [.bool false] else old
  | .text s => [.text ((s.flatMap utf8).map fun b => b.toNat)]
  | .int n => [.int n]
  | .bytes b => [.bytes b]
  | .msg fields =>
    match f.type with
    | .message k =>
      let r := readMessage S (S k) (present old) fields
      if old.isEmpty && r.all List.isEmpty then [] else [.msg r]
    | _ => []

/-- The new values of a field which had the values `old`, when `values` were written. -/
def readField (S : Schema) (f : Field) (old : List Value) (values : List Value) : List Value :=
  match values with
  | [] => old
  | v :: vs => if f.label = .repeated then old ++ (readItem S f v ++ readItems S f vs) else readSingle S f old v

/-- A message which had the fields `olds`, after reading the encoding of a message with the fields `fields`. -/
def readMessage (S : Schema) (fs : List Field) (olds : List (List Value)) (fields : List (List Value)) : List (List Value) :=
  match fs, fields with
  | f :: fs, vs :: fields => readField S f (olds.headD []) vs :: readMessage S fs olds.tail fields
  | _, _ => []
end

mutual
/-- A value that the reader gets as it was: strings are ASCII, false only in a required field, and a sub-message that is not in a
repeated field has some field set. -/
def FaithfulValue (S : Schema) (f : Field) (v : Value) : Prop :=
  match v with
  | .int _ => True
  | .bytes _ => True
  | .text s => ∀ c ∈ s, c < 128
  | .bool b => b = true ∨ f.label = .required
  | .msg fields =>
    match f.type with
    | .message k => (f.label = .repeated ∨ ∃ vs ∈ fields, vs ≠ []) ∧ Faithful S (S k) fields
    | _ => True

/-- All values of a field. -/
def FaithfulValues (S : Schema) (f : Field) (values : List Value) : Prop :=
  match values with
  | [] => True
  | v :: vs => FaithfulValue S f v ∧ FaithfulValues S f vs

/-- All fields of a message. -/
def Faithful (S : Schema) (fs : List Field) (fields : List (List Value)) : Prop :=
  match fs, fields with
  | f :: fs, vs :: fields => FaithfulValues S f vs ∧ Faithful S fs fields
  | _, _ => True
end

end PyNDN.Spec.Protobuf

namespace PyNDN.Spec.Protobuf
open _root_.PyNDN.Protobuf (Schema Field FieldType Label Value)

/-- Some required field of the message or of one of its sub-messages has no value. -/
inductive Missing (S : Schema) : List Field → List (List Value) → Prop
  | here {f : Field} {fs fields} : f.label = .required → Missing S (f :: fs) ([] :: fields)
  | inside {f : Field} {fs vs fields k sub} : f.type = .message k → .msg sub ∈ vs → Missing S (S k) sub →
      Missing S (f :: fs) (vs :: fields)
  | later {f : Field} {fs vs fields} : Missing S fs fields → Missing S (f :: fs) (vs :: fields)

end PyNDN.Spec.Protobuf
