import Verif.Model.Name
import Verif.Spec.Tlv
/-
Specification of names: canonical order, well-formedness, slices.  Only the data types come from the
model.
-/
namespace PyNDN.Spec

/-- What the packet carries for a component: its type code and value. -/
def key (c : Component) : Nat × List UInt8 := (c.type.code, c.value)

/-- The NDN canonical order of components: by type code, then length, then bytes. -/
def keyLt (a b : Nat × List UInt8) : Prop :=
  a.1 < b.1 ∨
  (a.1 = b.1 ∧ (a.2.length < b.2.length ∨ (a.2.length = b.2.length ∧ a.2 < b.2)))

def compLt (a b : Component) : Prop := keyLt (key a) (key b)

/-- The fields inside an encoded name: the type code and value of each component. -/
def nameFields (n : Name) : List (Nat × List UInt8) := n.map key

/-- The canonical order of names: lexicographic by component; a proper prefix comes first. -/
def nameLt (a b : Name) : Prop := List.Lex keyLt (nameFields a) (nameFields b)

/-- A component that the library itself or a decoder makes: digests have 32 bytes, and OTHER_CODE is
not used with the code of one of the recognized types. -/
def Canonical (c : Component) : Prop :=
  match c.type with
  | .implicit => c.value.length = 32
  | .params => c.value.length = 32
  | .generic => True
  | .other k => k ≠ 1 ∧ k ≠ 2 ∧ k ≠ 8 ∧ k < 2 ^ 64

instance (c : Component) : Decidable (Canonical c) := by
  unfold Canonical; cases c.type <;> infer_instance

def CanonicalName (n : Name) : Prop := ∀ c ∈ n, Canonical c

/-- The NDN-TLV encoding of a name. -/
def nameTlv (n : Name) : List UInt8 := tlv 7 (flat (nameFields n))

/-- A Python list slice `l[start:stop]`: negative indexes count from the end, everything is clipped. -/
def pySlice (l : List α) (start stop : Int) : List α :=
  let clip (k : Int) : Nat := (if k < 0 then max (l.length + k) 0 else min k l.length).toNat
  (l.take (clip stop)).drop (clip start)

end PyNDN.Spec
