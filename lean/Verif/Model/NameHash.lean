import Verif.Model.Name
/-
Model of the cached hash of a `Name` object (name.py:36-50, 703-750, 1292-1306).
-/
namespace PyNDN

/-- A `Name` object with its change counter and cached hash (name.py:36-50). -/
structure NameObj where
  components : Name
  changeCount : Nat
  hash : Option Int
  hashCodeChangeCount : Nat
  deriving Repr, DecidableEq

/-- `Name(value)` for a copy or an empty name, and the result of `getSubName` (name.py:36-50,
771-777). -/
def NameObj.new (components : Name) : NameObj := ⟨components, 0, none, 0⟩

/-- `Name.append` of a component or of all components of a name (name.py:703-743). -/
def NameObj.append (n : NameObj) (cs : Name) : NameObj :=
  { n with components := n.components ++ cs, changeCount := n.changeCount + 1 }

/-- `Name.clear` (name.py:745-750). -/
def NameObj.clear (n : NameObj) : NameObj :=
  { n with components := [], changeCount := n.changeCount + 1 }

/-- `hash(component)`: `Name.Component.__hash__` (name.py:608-612), where `hashBytes` is Python's hash
of a bytes object and `reduce` is what the built-in `hash()` does to a big int. -/
def componentHash (hashBytes : Bytes → Int) (reduce : Int → Int) (c : Component) : Int :=
  reduce (37 * c.type.code + hashBytes c.value)

/-- The loop at name.py:1299-1302. -/
def computeHash (hashBytes : Bytes → Int) (reduce : Int → Int) (cs : Name) : Int :=
  cs.foldl (fun hashCode c => 37 * hashCode + componentHash hashBytes reduce c) 0

/-- `Name.__hash__` (name.py:1292-1306): the returned hash and the object afterwards. -/
def NameObj.getHash (hashBytes : Bytes → Int) (reduce : Int → Int) (n : NameObj) : Int × NameObj :=
  let n := if n.hashCodeChangeCount ≠ n.changeCount then
      { n with hash := none, hashCodeChangeCount := n.changeCount }
    else n
  match n.hash with
  | some h => (h, n)
  | none =>
    let h := computeHash hashBytes reduce n.components
    (h, { n with hash := some h })

end PyNDN
