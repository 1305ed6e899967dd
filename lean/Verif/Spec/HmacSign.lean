import Verif.Model.HmacSign
import Verif.Spec.Packet
/-
Specification for C87: what a signature covers, and what is a forgery.
-/
namespace PyNDN.Spec.HmacSign
open _root_.PyNDN
open _root_.PyNDN.HmacSign

/-- Two Data packets say the same: everything but the signature bits. -/
def SaySame (a b : Data) : Prop :=
  a.name = b.name ∧ SameMetaInfo a.metaInfo b.metaInfo ∧ a.content.getD [] = b.content.getD [] ∧ SameSigInfo a.signature.info b.signature.info

/-- The cached encoding of a Data object, if there is one, is what the encoder gives. -/
def Fresh (o : DataObj) : Prop := ∀ w, o.cached = some w → encodeData o.data = .ok w

/-- A Data object that has been signed with the key, and can be sent. -/
def SignedData (mac : Bytes → Bytes → Bytes) (key : Bytes) (o : DataObj) : Prop :=
  (∃ o0, DataOk o0.data ∧ Fresh o0 ∧ signData mac key o0 = .ok o) ∧ ∀ w, o.wireEncode = .ok w → w.1.length < 2 ^ 64

/-- A message whose code is known, though it is not the signed portion of a Data packet that has been signed with the key. -/
def ForgedData (mac : Bytes → Bytes → Bytes) (key : Bytes) (signed : DataObj → Prop) (bits : Option Bytes) : Prop :=
  ∃ m, bits = some (mac key m) ∧ ∀ o, signed o → ∀ wire b e, o.wireEncode = .ok (wire, b, e) → slice wire b e ≠ m

/-- An Interest object that has been signed with the key, and can be sent. -/
def SignedInterest (mac : Bytes → Bytes → Bytes) (key : Bytes) (o : InterestObj) : Prop :=
  (∃ o0 keyName rnd, InterestOk o0.interest ∧ CanonicalName keyName ∧ signInterest mac key (some keyName) rnd o0 = .ok o) ∧
    ∀ rnd w, o.wireEncode rnd = .ok w → w.1.length < 2 ^ 64

/-- A message whose code is known, though it is not the signed portion of an Interest that has been signed with the key. -/
def ForgedInterest (mac : Bytes → Bytes → Bytes) (key : Bytes) (signed : InterestObj → Prop) (bits : Option Bytes) : Prop :=
  ∃ m, bits = some (mac key m) ∧ ∀ o, signed o → ∀ rnd wire b e, o.wireEncode rnd = .ok (wire, b, e) → slice wire b e ≠ m

end PyNDN.Spec.HmacSign
