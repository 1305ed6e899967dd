import Verif.Model.Storage
/-
What a storage holds after some operations: a map from full names to packets.
-/
namespace PyNDN
namespace Storage

/-- The name, compared by the values of its components, begins with the prefix. -/
def under (pre name : Name) : Prop := pre.map (·.value) <+: name.map (·.value)

instance (p n : Name) : Decidable (under p n) := by unfold under; infer_instance

/-- The packet with this full name, after the operations (the last one first). -/
def holdsRev : List Op → Name → Option Data
  | [], _ => none
  | .insert (.ok n) d :: ops, k => if k = n then some d else holdsRev ops k
  | .insert (.error _) _ :: ops, k => holdsRev ops k
  | .remove p :: ops, k => if under p k then none else holdsRev ops k

def holds (ops : List Op) (k : Name) : Option Data := holdsRev ops.reverse k

end Storage
end PyNDN
