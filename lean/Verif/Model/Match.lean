import Verif.Model.Packet
/-
Matching: `Exclude.matches` (exclude.py), `Interest.matchesName` and `Interest.matchesData`
(interest.py).
-/
namespace PyNDN

/-- The search for the upper bound (exclude.py:204-210): the first COMPONENT entry, and the entries
after it. -/
def findUpper : Exclude → Option (Component × Exclude)
  | [] => none
  | none :: es => findUpper es
  | some c :: es => some (c, es)

/-- `component.compare(bound.getComponent())`; the component of an ANY entry is None, and `None._type`
raises AttributeError (name.py:384-387). -/
def compareBound (component : Component) (bound : Option Component) : Except Err Int :=
  match bound with
  | some b => .ok (component.compare b)
  | none => .error .attribute

theorem findUpper_length {es : Exclude} {u : Component} {rest : Exclude} (h : findUpper es = some (u, rest)) :
    rest.length < es.length := by
  induction es with
  | nil => cases h
  | cons e es ih =>
    cases e with
    | none => have := ih h; simp; omega
    | some c => cases h; simp

/-- The test between the bounds when there is an upper bound (exclude.py:216-223). -/
def insideRange (component : Component) (prev : Option (Option Component)) (upper : Component) :
    Except Err Bool :=
  match prev with
  | some lower =>
    match compareBound component lower with
    | .error e => .error e
    | .ok k => if k > 0 then .ok (component.compare upper < 0 : Bool) else .ok false
  | none => .ok (component.compare upper < 0 : Bool)

/-- The loop of `Exclude.matches` (exclude.py:195-240), from the entries at index `i`; `prev` is the
entry at `i - 1`, if `i > 0`. -/
def Exclude.matchLoop (component : Component) (prev : Option (Option Component)) :
    Exclude → Except Err Bool
  | [] => .ok false
  | none :: es =>
    match h : findUpper es with
    | some (u, rest) => do
      let inside ← insideRange component prev u
      if inside then return true
      else
        -- The next pass is at the upper bound.
        have : rest.length < es.length := findUpper_length h
        if component.equals u then return true else Exclude.matchLoop component (some (some u)) rest
    | none =>
      match prev with
      | some lower => do
        if (← compareBound component lower) > 0 then return true
        else Exclude.matchLoop component (some none) es
      | none => .ok true
  | some c :: es =>
    if component.equals c then .ok true else Exclude.matchLoop component (some (some c)) es
termination_by es => es.length
decreasing_by all_goals (simp; try omega)

/-- `Exclude.matches` (exclude.py:187-240). -/
def Exclude.matches (ex : Exclude) (component : Component) : Except Err Bool :=
  Exclude.matchLoop component none ex

/-- `Interest.matchesName` (interest.py:732-759). -/
def Interest.matchesName (i : Interest) (name : Name) : Except Err Bool := do
  if !i.name.matches name then return false
  else if i.minSuffix.any (fun (m : Nat) => !((name.length : Int) + 1 - i.name.length ≥ (m : Int))) then return false
  else if i.maxSuffix.any (fun (m : Nat) => !((name.length : Int) + 1 - i.name.length ≤ (m : Int))) then return false
  else if i.exclude.length > 0 ∧ name.length > i.name.length then
    let c ← pyIndex name i.name.length
    return !(← i.exclude.matches c)
  else return true

/-- The prefix check of `matchesData` (interest.py:795-808). -/
def Interest.checkPrefix (i : Interest) (dataName : Name) (fullName : Except Err Name) : Except Err Bool := do
  if i.name.length = dataName.length + 1 then
    let last ← pyIndex i.name (-1)
    if last.type = .implicit then return i.name.equals (← fullName)
    else return false
  else return i.name.matches dataName

/-- The Exclude check of `matchesData` (interest.py:810-822); true if the Data is not excluded. -/
def Interest.checkExclude (i : Interest) (dataName : Name) (fullName : Except Err Name) : Except Err Bool := do
  if i.exclude.length > 0 ∧ dataName.length + 1 > i.name.length then
    if i.name.length = dataName.length + 1 - 1 then
      let full ← fullName
      let c ← pyIndex full i.name.length
      return !(← i.exclude.matches c)
    else
      let c ← pyIndex dataName i.name.length
      return !(← i.exclude.matches c)
  else return true

/-- The KeyLocator check of `matchesData` (interest.py:824-833). -/
def Interest.checkKeyLocator (i : Interest) (info : SigInfo) : Bool :=
  if i.keyLocator.type ≠ none then
    match info.keyLocator? with
    | none => false
    | some kl => i.keyLocator.equals kl
  else true

/-- `Interest.matchesData` (interest.py:761-835) for a Data packet with the name `dataName` and the
signature info `info`, whose `getFullName` returns `fullName`. -/
def Interest.matchesData (i : Interest) (dataName : Name) (fullName : Except Err Name) (info : SigInfo) :
    Except Err Bool := do
  let fullNameLength := dataName.length + 1
  if !(i.name.length + i.minSuffix.getD 0 ≤ fullNameLength) then return false
  else if i.maxSuffix.any (fun m => !(i.name.length + m ≥ fullNameLength)) then return false
  else if !(← i.checkPrefix dataName fullName) then return false
  else if !(← i.checkExclude dataName fullName) then return false
  else return i.checkKeyLocator info

end PyNDN
