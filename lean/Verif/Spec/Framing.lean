import Verif.Spec.Tlv
/-
Specification of stream framing.
-/
namespace PyNDN.Spec

/-- `bs` is one TLV element, with any form of type and length number. -/
def IsElement (bs : List UInt8) : Prop := ∃ t v, Element t v bs

/-- `p` is the beginning of an element (possibly empty) but not yet the whole. -/
def Incomplete (p : List UInt8) : Prop := ∃ q, q ≠ [] ∧ IsElement (p ++ q)

/-- The byte string `s` consists of the complete elements `es` followed by the incomplete rest `p`. -/
structure Frames (s : List UInt8) (es : List (List UInt8)) (p : List UInt8) : Prop where
  eq : s = es.flatten ++ p
  elements : ∀ e ∈ es, IsElement e
  rest : Incomplete p

end PyNDN.Spec
