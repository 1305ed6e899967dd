import Verif.Model.Match
import Verif.Spec.Name
/-
Specification of the selectors of an Interest.  Only the data types come from the model.
-/
namespace PyNDN.Spec

/-- The last listed component of some exclude entries (`none` is ANY). -/
def lastListed (l : List (Option Component)) : Option Component := (l.filterMap id).getLast?

/-- The first listed component. -/
def firstListed (l : List (Option Component)) : Option Component := (l.filterMap id).head?

/-- A component is excluded when it is listed, or when there is an ANY such that it comes after the
last component listed before the ANY (if any) and before the first component listed after it (if
any). -/
def Excluded (entries : List (Option Component)) (c : Component) : Prop :=
  some c ∈ entries ∨
  ∃ l r, entries = l ++ none :: r ∧ (∀ lo, lastListed l = some lo → compLt lo c) ∧
    (∀ hi, firstListed r = some hi → compLt c hi)

/-- Two or more ANY at the end, after a listed component (a redundant but allowed Exclude). -/
def EndsInAnyAny (entries : List (Option Component)) : Prop :=
  ∃ l c k, entries = l ++ some c :: none :: none :: List.replicate k none

/-- The suffix of the full name after the Interest name has `min` to `max` components. -/
def SuffixOk (i : Interest) (size : Nat) : Prop :=
  (∀ m, i.minSuffix = some m → i.name.length + m ≤ size) ∧
  (∀ m, i.maxSuffix = some m → size ≤ i.name.length + m)

/-- The key locator asked for is that of the signature: the same type, and for a key name the same
name, for a key digest the same digest. -/
def KeyLocatorAllows (i : Interest) (info : SigInfo) : Prop :=
  i.keyLocator.type = none ∨
  ∃ kl, (match info with
      | .rsa k _ => some k
      | .ecdsa k _ => some k
      | .hmac k => some k
      | .digest => none
      | .generic _ _ => none) = some kl ∧
    i.keyLocator.type = kl.type ∧ (i.keyLocator.type = some 1 → i.keyLocator.keyName = kl.keyName) ∧
    (i.keyLocator.type = some 2 → i.keyLocator.keyData = kl.keyData)

end PyNDN.Spec
