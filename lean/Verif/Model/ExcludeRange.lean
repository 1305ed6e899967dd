import Verif.Model.Match
/-
Model of the operations on ranges of an Exclude in encrypt/producer.py:451-651.
-/
namespace PyNDN.ExcludeRange

/-- `Producer.ExcludeEntry` (producer.py:452-461). -/
structure Entry where
  component : Component
  anyFollows : Bool
  deriving DecidableEq, Repr

/-- `Name.Component()`. -/
def emptyComponent : Component := .generic []

/-- One pass of the loop of `getExcludeEntries`. -/
def addEntry (entries : List Entry) : Option Component → List Entry
  | none =>
    match entries.getLast? with
    | none => [⟨emptyComponent, true⟩]
    | some l => entries.dropLast ++ [{ l with anyFollows := true }]
  | some c => entries ++ [⟨c, false⟩]

/-- `getExcludeEntries` (producer.py:463-486). -/
def getEntries (ex : Exclude) : List Entry := ex.foldl addEntry []

/-- `appendComponent` and `appendAny` for an entry (producer.py:506-508). -/
def entryItems (e : Entry) : Exclude := some e.component :: if e.anyFollows then [none] else []

/-- `setExcludeEntries` (producer.py:488-508). -/
def setEntries : List Entry → Exclude
  | [] => []
  | e :: es => (if e.component.value.length = 0 ∧ e.anyFollows then [none] else entryItems e) ++ es.flatMap entryItems

/-- The loop of `findEntryBeforeOrAt`, from index `i - 1` down. -/
def findFrom (entries : List Entry) (component : Component) : Nat → Int
  | 0 => -1
  | i + 1 =>
    match entries[i]? with
    | some e => if e.component.compare component ≤ 0 then i else findFrom entries component i
    | none => findFrom entries component i

/-- `findEntryBeforeOrAt` (producer.py:510-527). -/
def findBeforeOrAt (entries : List Entry) (component : Component) : Int := findFrom entries component entries.length

/-- The part that `excludeAfter` (producer.py:540-562) and `excludeRange` (producer.py:602-624) have in common: the entries and `iNewFrom`. -/
def openRange (entries : List Entry) (fromComponent : Component) : List Entry × Nat :=
  let iFoundFrom := findBeforeOrAt entries fromComponent
  if iFoundFrom < 0 then (⟨fromComponent, true⟩ :: entries, 0)
  else
    let i := iFoundFrom.toNat
    match entries[i]? with
    | none => (entries, i)
    | some foundFrom =>
      if !foundFrom.anyFollows then
        if foundFrom.component.equals fromComponent then (entries.set i { foundFrom with anyFollows := true }, i)
        else (entries.insertIdx (i + 1) ⟨fromComponent, true⟩, i + 1)
      else (entries, i)

/-- `excludeAfter` (producer.py:529-568). -/
def excludeAfter (ex : Exclude) (fromComponent : Component) : Exclude :=
  let (entries, iNewFrom) := openRange (getEntries ex) fromComponent
  setEntries (entries.take (iNewFrom + 1))

/-- `entries[a:b] = []`. -/
def removeSlice (entries : List Entry) (a b : Nat) : List Entry := entries.take a ++ entries.drop (max a b)

/-- `excludeRange` (producer.py:580-651); RuntimeError if the range is empty. -/
def excludeRange (ex : Exclude) (fromComponent to : Component) : Except Err Exclude :=
  if fromComponent.compare to ≥ 0 then .error .runtime
  else
    let (entries, iNewFrom) := openRange (getEntries ex) fromComponent
    let iFoundTo := (findBeforeOrAt entries to).toNat
    if iFoundTo = iNewFrom then .ok (setEntries (entries.insertIdx (iNewFrom + 1) ⟨to, false⟩))
    else
      match entries[iFoundTo]? with
      | none => .error .index
      | some foundTo =>
        if !foundTo.anyFollows then
          if foundTo.component.equals to then .ok (setEntries (removeSlice entries (iNewFrom + 1) iFoundTo))
          else .ok (setEntries (removeSlice (entries.insertIdx (iFoundTo + 1) ⟨to, false⟩) (iNewFrom + 1) (iFoundTo + 1)))
        else .ok (setEntries (removeSlice entries (iNewFrom + 1) (iFoundTo + 1)))

/-- `excludeBefore` (producer.py:570-578). -/
def excludeBefore (ex : Exclude) (to : Component) : Except Err Exclude := excludeRange ex emptyComponent to

end PyNDN.ExcludeRange
