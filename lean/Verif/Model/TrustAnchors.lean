import Verif.Model.CertStore
/-
Model of the trust anchors of a validator: `TrustAnchorContainer` (security/v2/trust_anchor_container.py), `StaticTrustAnchorGroup`
(static_trust_anchor_group.py), `DynamicTrustAnchorGroup` (dynamic_trust_anchor_group.py) and `TrustAnchorGroup.readCertificate`
(trust_anchor_group.py).

Parameters: what the files and directories have at each time.  Simplification: a certificate that has been read from a file has passed
the check of its format, so that copying it does not raise; the ids of groups are strings; the time is a number of milliseconds since
1970, and it does not go back.
-/
namespace PyNDN.TrustAnchors
open PyNDN PyNDN.Validator

abbrev Str := List Char

/-- The files. -/
structure Env where
  /-- `readCertificate(path)` at a time; none if it cannot be read (trust_anchor_group.py:68-86). -/
  file : Nat → Str → Option SData
  /-- The certificates in the files of a directory at a time, in the order of `os.listdir`, without the files that cannot be read;
  none if the directory cannot be listed (dynamic_trust_anchor_group.py:81-88). -/
  dir : Nat → Str → Option (List SData)

/-- `DynamicTrustAnchorGroup` (dynamic_trust_anchor_group.py:47-61). -/
structure Dyn where
  path : Str
  isDirectory : Bool
  refreshPeriod : Nat
  expireTime : Nat := 0
  names : List Name := []

inductive Group where
  | static (names : List Name)
  | dynamic (d : Dyn)

/-- `TrustAnchorContainer` (trust_anchor_container.py:52-55) and the clock.  The anchors are in the order of their names. -/
structure State where
  now : Nat
  anchors : List SData := []
  groups : List (Str × Group) := []

/-- Whether a name is in a set of names. -/
def hasName (n : Name) (l : List Name) : Bool := l.any fun x => x.equals n

/-- Remove a name from a set of names. -/
def dropName (n : Name) (l : List Name) : List Name := l.filter fun x => !x.equals n

/-- The calls of `_loadCertificate` (dynamic_trust_anchor_group.py:78-88, 95-106): the names and the anchors, and the old names that
are left, or KeyError. -/
def loadAll : List SData → List Name → List Name → List SData → List Name × List SData × Except Err (List Name)
  | [], old, names, anchors => (names, anchors, .ok old)
  | c :: cs, old, names, anchors =>
    if hasName c.name names then
      if hasName c.name old then loadAll cs (dropName c.name old) names anchors else (names, anchors, .error .key)
    else loadAll cs old (c.name :: names) (addAnchor c anchors)

/-- `refresh` (dynamic_trust_anchor_group.py:63-93). -/
def Dyn.refresh (E : Env) (now : Nat) (d : Dyn) (anchors : List SData) : Dyn × List SData × Except Err Unit :=
  if d.expireTime > now then (d, anchors, .ok ())
  else
    let d := { d with expireTime := now + d.refreshPeriod }
    let files := if d.isDirectory then E.dir now d.path else some (E.file now d.path).toList
    match files with
    | none => (d, anchors, .error .runtime)
    | some cs =>
      match loadAll cs d.names d.names anchors with
      | (names, anchors, .error e) => ({ d with names := names }, anchors, .error e)
      | (names, anchors, .ok old) =>
        ({ d with names := old.foldl (fun l n => dropName n l) names }, old.foldl (fun l n => removeAnchor n l) anchors, .ok ())

/-- `_refresh` (trust_anchor_container.py:254-256). -/
def refreshAll (E : Env) (now : Nat) : List (Str × Group) → List SData → List (Str × Group) × List SData × Except Err Unit
  | [], anchors => ([], anchors, .ok ())
  | (g, .static names) :: rest, anchors =>
    match refreshAll E now rest anchors with
    | (rest, anchors, r) => ((g, .static names) :: rest, anchors, r)
  | (g, .dynamic d) :: rest, anchors =>
    match d.refresh E now anchors with
    | (d, anchors, .error e) => ((g, .dynamic d) :: rest, anchors, .error e)
    | (d, anchors, .ok ()) =>
      match refreshAll E now rest anchors with
      | (rest, anchors, r) => ((g, .dynamic d) :: rest, anchors, r)

/-- The group with an id. -/
def lookup (g : Str) : List (Str × Group) → Option Group
  | [] => none
  | x :: xs => if x.1 = g then some x.2 else lookup g xs

/-- Set the group with an id. -/
def setGroup (g : Str) (x : Group) : List (Str × Group) → List (Str × Group)
  | [] => [(g, x)]
  | y :: ys => if y.1 = g then (g, x) :: ys else y :: setGroup g x ys

/-- The calls, and the passing of time. -/
inductive Op where
  | insert (group : Str) (c : SData)
  | insertPath (group : Str) (path : Str) (refreshPeriod : Nat) (isDirectory : Bool)
  /-- `getGroup(group).remove(name)`. -/
  | remove (group : Str) (name : Name)
  | clear
  | find (name : Name)
  | findInterest (i : Interest)
  | wait (milliseconds : Nat)

/-- What a call gives. -/
inductive Obs where
  | done
  | found (c : Option SData)
  | raised (e : Err)
  deriving DecidableEq

/-- `insert(groupId, certificate)` (trust_anchor_container.py:90-104; static_trust_anchor_group.py:39-53).  If the format of the
certificate is wrong, its name has already been added to the group. -/
def State.insert (s : State) (g : Str) (c : SData) : State × Obs :=
  match lookup g s.groups with
  | some (.dynamic _) => (s, .raised .runtime)
  | some (.static names) =>
    if hasName c.name names then (s, .done)
    else
      match checkFormat c with
      | .error e => ({ s with groups := setGroup g (.static (c.name :: names)) s.groups }, .raised e)
      | .ok () => ({ s with groups := setGroup g (.static (c.name :: names)) s.groups, anchors := addAnchor c s.anchors }, .done)
  | none =>
    match checkFormat c with
    | .error e => ({ s with groups := setGroup g (.static [c.name]) s.groups }, .raised e)
    | .ok () => ({ s with groups := setGroup g (.static [c.name]) s.groups, anchors := addAnchor c s.anchors }, .done)

/-- `insert(groupId, path, refreshPeriod, isDirectory)` (trust_anchor_container.py:105-114; dynamic_trust_anchor_group.py:47-61).  If
the constructor of the group raises, there is no group, but the anchors that it has added stay. -/
def State.insertPath (E : Env) (s : State) (g path : Str) (refreshPeriod : Nat) (isDirectory : Bool) : State × Obs :=
  match lookup g s.groups with
  | some _ => (s, .raised .runtime)
  | none =>
    if refreshPeriod = 0 then (s, .raised .value)
    else
      match ({ path := path, isDirectory := isDirectory, refreshPeriod := refreshPeriod } : Dyn).refresh E s.now s.anchors with
      | (_, anchors, .error e) => ({ s with anchors := anchors }, .raised e)
      | (d, anchors, .ok ()) => ({ s with anchors := anchors, groups := setGroup g (.dynamic d) s.groups }, .done)

/-- `getGroup(groupId).remove(name)` (trust_anchor_container.py:174-189; static_trust_anchor_group.py:55-66).  A dynamic group has no
`remove`. -/
def State.remove (s : State) (g : Str) (n : Name) : State × Obs :=
  match lookup g s.groups with
  | none => (s, .raised .runtime)
  | some (.dynamic _) => (s, .raised .attribute)
  | some (.static names) =>
    ({ s with groups := setGroup g (.static (dropName n names)) s.groups, anchors := removeAnchor n s.anchors }, .done)

/-- `find(keyName)` after `_refresh` (trust_anchor_container.py:142-150). -/
def findName (n : Name) (anchors : List SData) : Option SData :=
  match (anchors.dropWhile fun c => c.name.compare n < 0).head? with
  | none => none
  | some c => if n.matches c.name then some c else none

/-- `find` (trust_anchor_container.py:123-172). -/
def State.find (E : Env) (s : State) (look : List SData → Except Err (Option SData)) : State × Obs :=
  match refreshAll E s.now s.groups s.anchors with
  | (groups, anchors, .error e) => ({ s with groups := groups, anchors := anchors }, .raised e)
  | (groups, anchors, .ok ()) =>
    ({ s with groups := groups, anchors := anchors },
      match look anchors with
      | .error e => .raised e
      | .ok r => .found r)

def step (E : Env) (s : State) : Op → State × Obs
  | .insert g c => s.insert g c
  | .insertPath g path refreshPeriod isDirectory => s.insertPath E g path refreshPeriod isDirectory
  | .remove g n => s.remove g n
  | .clear => ({ s with anchors := [], groups := [] }, .done)
  | .find n => s.find E fun l => .ok (findName n l)
  | .findInterest i => s.find E fun l => findSorted i l
  | .wait ms => ({ s with now := s.now + ms }, .done)

/-- The state after calls. -/
def run (E : Env) (s : State) : List Op → State
  | [] => s
  | o :: os => run E (step E s o).1 os

/-- The calls, each with what it gives. -/
def trace (E : Env) (s : State) : List Op → List (Op × Obs)
  | [] => []
  | o :: os => (o, (step E s o).2) :: trace E (step E s o).1 os

/-- A new container. -/
def init (t : Nat) : State := { now := t }

end PyNDN.TrustAnchors
