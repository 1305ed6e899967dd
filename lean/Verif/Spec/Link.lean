import Verif.Model.Link
import Verif.Spec.Packet
/-
Specification of Links: histories of calls.
-/
namespace PyNDN.Spec.LinkPacket
open PyNDN PyNDN.LinkPacket

/-- The call as a call on the set. -/
def asSet : Call → DelegationOp
  | .add p n => .add p n
  | .remove n => .remove n

/-- Preferences of 64 bits and names that can be encoded. -/
def CallOk : Call → Prop
  | .add p n => 0 ≤ p ∧ p < 2 ^ 64 ∧ CanonicalName n
  | .remove _ => True

/-- The Link after the calls (latest first) on `Link(name)`. -/
def after (name : Name) : List Call → Link
  | [] => ofName name
  | c :: earlier => (call (after name earlier) c).1

/-- Some delegation was added at some time. -/
def Added (calls : List Call) : Prop := ∃ p n, .add p n ∈ calls

/-- The Content that belongs to the delegations. -/
def contentOf (ds : DelegationSet) : Bytes := flat (delegationFields ds)

end PyNDN.Spec.LinkPacket
