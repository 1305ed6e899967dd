import Verif.Model.ExcludeRange
import Verif.Spec.Match
/-
Specification of the ranges of an Exclude.
-/
namespace PyNDN.Spec.ExcludeRange

/-- A GENERIC component that is not empty, such as a time stamp. -/
def Plain (c : Component) : Prop := c.type = .generic ∧ c.value ≠ []

/-- The listed components are plain and in ascending order. -/
def Ordered (ex : Exclude) : Prop := (∀ c, some c ∈ ex → Plain c) ∧ (ex.filterMap id).Pairwise compLt

def le (a b : Component) : Prop := a = b ∨ compLt a b

end PyNDN.Spec.ExcludeRange
