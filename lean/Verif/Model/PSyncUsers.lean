import Verif.Model.PSync
/-
Model of full PSync with users: sync/full_psync2017_with_users.py, sync/detail/psync_user_prefixes.py and
sync/psync_missing_data_info.py.

Simplification: the dictionary holds its own copies of the prefix names.
-/
namespace PyNDN.PSync

/-- `PSyncMissingDataInfo` (psync_missing_data_info.py:27-49). -/
structure MissingData where
  name : Name
  low : Nat
  high : Nat
  deriving DecidableEq

/-- `_prefixes`, and the lists that were given to `onUpdate`. -/
structure Users where
  prefixes : List (Name × Nat) := []
  told : List (List MissingData) := []

/-- `Name(prefix).appendNumber(number)`. -/
def appendNumber (pre : Name) (number : Nat) : Except Err Name := do
  let c ← Component.fromNumber number
  return pre ++ [c]

/-- `_canAddReceivedName` (full_psync2017_with_users.py:152-176): the names to remove, and the result. -/
def canAddReceived (u : Users) (name : Name) : Except Err (List Name × Bool) := do
  let pre ← getPrefix name (-1)
  let c ← pyIndex name (-1)
  match dictGet pre u.prefixes with
  | none => return ([], true)
  | some old =>
    if old < c.toNumber then
      if old ≠ 0 then do
        let n ← appendNumber pre old
        return ([n], true)
      else return ([], true)
    else return ([], false)

/-- The loop of `_onNamesUpdate` (full_psync2017_with_users.py:187-196). -/
def updateLoop : List (Name × Nat) → List MissingData → List Name → List (Name × Nat) × Except Err (List MissingData)
  | ps, updates, [] => (ps, .ok updates)
  | ps, updates, name :: names => match getPrefix name (-1), pyIndex name (-1) with
    | .ok pre, .ok c =>
      updateLoop (dictSet pre c.toNumber ps) (updates ++ [⟨pre, (dictGet pre ps).getD 0 + 1, c.toNumber⟩]) names
    | .error e, _ => (ps, .error e)
    | _, .error e => (ps, .error e)

/-- `_onNamesUpdate` (full_psync2017_with_users.py:178-201); an exception is caught by the caller. -/
def namesUpdate (u : Users) (names : List Name) : Users :=
  match updateLoop u.prefixes [] names with
  | (ps, .ok updates) => ⟨ps, u.told ++ [updates]⟩
  | (ps, .error _) => ⟨ps, u.told⟩

/-- `_isNotFutureHash` (full_psync2017_with_users.py:203-226). -/
def isNotFutureHash (nameHash : Name → Nat) (u : Users) (name : Name) (negative : List Nat) : Except Err Bool := do
  let pre ← getPrefix name (-1)
  let next ← appendNumber pre ((dictGet pre u.prefixes).getD 0 + 1)
  return !negative.contains (nameHash next)

/-- The FullPSync2017 inside (full_psync2017_with_users.py:81-84). -/
def withUsers (P : Params Users) : Params Users :=
  { P with canAddToSyncData := some (isNotFutureHash P.nameHash), canAddReceivedName := some canAddReceived,
           onNamesUpdate := namesUpdate }

/-- `getSequenceNo` (full_psync2017_with_users.py:89-97, psync_user_prefixes.py:44-55). -/
def getSequenceNo (s : State Users) (pre : Name) : Int :=
  match dictGet pre s.app.prefixes with
  | some k => k
  | none => -1

/-- `addUserNode` (full_psync2017_with_users.py:99-112, psync_user_prefixes.py:57-75). -/
def addUserNode (pre : Name) : M Users Unit := do
  match dictGet pre (← get).app.prefixes with
  | some _ => pure ()
  | none => modify fun s => { s with app := { s.app with prefixes := dictSet pre 0 s.app.prefixes } }

/-- `removeUserNode` (full_psync2017_with_users.py:114-125, psync_user_prefixes.py:77-89). -/
def removeUserNode (P : Params Users) (pre : Name) : M Users Unit := do
  match dictGet pre (← get).app.prefixes with
  | none => pure ()
  | some k =>
    modify fun s => { s with app := { s.app with prefixes := dictDel pre s.app.prefixes } }
    removeName P (← lift (appendNumber pre k))

/-- `_updateSequenceNo` (full_psync2017_with_users.py:228-252, psync_user_prefixes.py:91-127). -/
def updateSequenceNo (P : Params Users) (pre : Name) (number : Nat) : M Users Bool := do
  match dictGet pre (← get).app.prefixes with
  | none => pure false
  | some old =>
    if old ≥ number then pure false
    else
      modify fun s => { s with app := { s.app with prefixes := dictSet pre number s.app.prefixes } }
      if old ≠ 0 then
        removeName P (← lift (appendNumber pre old))
        pure true
      else pure true

/-- `publishName` (full_psync2017_with_users.py:127-150). -/
def publishSequenceNo (P : Params Users) (now : Nat) (pre : Name) (number : Int) : M Users Unit := do
  match dictGet pre (← get).app.prefixes with
  | none => pure ()
  | some old =>
    let number := if number ≥ 0 then number.toNat else old + 1
    if ← updateSequenceNo P pre number then publishName P now (← lift (appendNumber pre number))
    else pure ()

/-- What can happen to an instance. -/
inductive UserOp where
  | addUserNode (pre : Name)
  | removeUserNode (pre : Name)
  | publishName (now : Nat) (pre : Name) (number : Int)
  | interest (now : Nat) (name : Name) (hasLifetime : Bool)
  | data (interestName : Name) (content : Bytes)
  | renew
  | expire (i : Nat)
  | expireStore (i : Nat)

def performUser (P : Params Users) : UserOp → M Users Unit
  | .addUserNode p => addUserNode p
  | .removeUserNode p => removeUserNode (withUsers P) p
  | .publishName now p k => publishSequenceNo (withUsers P) now p k
  | .interest now n l => perform (withUsers P) (.interest now n l)
  | .data i c => perform (withUsers P) (.data i c)
  | .renew => perform (withUsers P) .renew
  | .expire i => perform (withUsers P) (.expire i)
  | .expireStore i => perform (withUsers P) (.expireStore i)

/-- A history of an instance; the constructor with a user prefix is followed by `addUserNode`
(full_psync2017_with_users.py:78-87). -/
def runUsers (P : Params Users) (ops : List UserOp) : State Users :=
  ops.foldl (fun s op => (performUser P op s).2) (start (withUsers P) {})

end PyNDN.PSync
