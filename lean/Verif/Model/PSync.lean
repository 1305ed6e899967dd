import Verif.Model.PSyncSegments
import Verif.Model.Iblt
/-
Model of full PSync: sync/full_psync2017.py and sync/psync_producer_base.py.

Simplifications.  Dictionaries and sets are lists: a dictionary in the order of insertion; the order of a set, which
Python does not say, is the order of `Iblt.listEntries`.  Names are found in a dictionary by equality (C17).  The logging
is left out.
-/
namespace PyNDN.PSync
open PyNDN.Iblt (Table)

/-! ### Dictionaries -/

section
variable {κ ν : Type} [DecidableEq κ]

/-- `d[key] = value`. -/
def dictSet (key : κ) (value : ν) : List (κ × ν) → List (κ × ν)
  | [] => [(key, value)]
  | (k, v) :: d => if k = key then (k, value) :: d else (k, v) :: dictSet key value d

/-- `d.get(key)`. -/
def dictGet (key : κ) : List (κ × ν) → Option ν
  | [] => none
  | (k, v) :: d => if k = key then some v else dictGet key d

/-- `del d[key]`, without the KeyError. -/
def dictDel (key : κ) (d : List (κ × ν)) : List (κ × ν) := d.filter fun x => x.1 ≠ key
end

/-! ### The state -/

/-- How a call ends if it does not return: it raises, or it runs for ever. -/
inductive Stop where
  | raised (e : Err)
  | hangs
  deriving DecidableEq

/-- What an instance does, as seen from outside: it expresses a sync Interest, or it calls the callback with new names. -/
inductive Event where
  | interest (name : Name)
  | update (names : List Name)
  deriving DecidableEq

/-- `_PendingEntryInfoFull` (full_psync2017.py:141-144).  The object is identified by a number; the numbers of the
entries with `_isRemoved` are in the state. -/
structure Pending where
  entry : Nat
  iblt : Table
  deriving DecidableEq

/-- An instance of FullPSync2017 (full_psync2017.py:93-107, psync_producer_base.py:40-52). `σ` is the state of the application. -/
structure State (σ : Type) where
  nameToHash : List (Name × Nat) := []
  hashToName : List (Nat × Name) := []
  iblt : Table
  pending : List (Name × Pending) := []
  removed : List Nat := []
  /-- The delayed calls of `_delayedRemovePendingEntry`: the name and the entry. -/
  timers : List (Name × Nat) := []
  nextEntry : Nat := 0
  outstanding : Name := []
  pub : Publisher := {}
  log : List Event := []
  app : σ

/-- The parameters of the constructor, and the environment. -/
structure Params (σ : Type) where
  /-- `Common.murmurHash3Uint32`. -/
  hash : Iblt.Hash
  /-- `Common.murmurHash3Blob(N_HASHCHECK, name.toUri())`. -/
  nameHash : Name → Nat
  compress : Bytes → Bytes
  decompress : Bytes → Except Err Bytes
  /-- A call of `listEntries` that needs more rounds than this counts as running for ever. -/
  rounds : Nat
  expected : Nat
  syncPrefix : Name
  pub : PubParams
  freshness : Nat
  /-- `abs(hash(name))`. -/
  pyHash : Name → Nat
  /-- What expressing an Interest raises, if it does. -/
  expressRaises : Name → Option Err := fun _ => none
  canAddToSyncData : Option (σ → Name → List Nat → Except Err Bool) := none
  /-- The callback may call `removeName`, then returns True or False. -/
  canAddReceivedName : Option (σ → Name → Except Err (List Name × Bool)) := none
  onNamesUpdate : σ → List Name → σ

/-- `_threshold` (psync_producer_base.py:43). -/
def Params.threshold {σ : Type} (P : Params σ) : Nat := P.expected / 2

/-- A method: it may raise, and keeps what it changed before. -/
def M (σ α : Type) := State σ → Except Stop α × State σ

section
variable {σ : Type}

instance : Monad (M σ) where
  pure a := fun s => (.ok a, s)
  bind m f := fun s => match m s with
    | (.ok a, s') => f a s'
    | (.error e, s') => (.error e, s')

def lift {α : Type} (x : Except Err α) : M σ α := fun s => match x with
  | .ok a => (.ok a, s)
  | .error e => (.error (.raised e), s)

def get : M σ (State σ) := fun s => (.ok s, s)
def modify (f : State σ → State σ) : M σ Unit := fun s => (.ok (), f s)
def stop {α : Type} (e : Stop) : M σ α := fun s => (.error e, s)

/-- `for x in xs: f(x)`. -/
def forEach {α : Type} (f : α → M σ Unit) : List α → M σ Unit
  | [] => pure ()
  | x :: xs => do f x; forEach f xs

/-! ### PSyncProducerBase -/

/-- `insertIntoIblt` (psync_producer_base.py:54-67). -/
def insertIntoIblt (P : Params σ) (name : Name) : M σ Unit := do
  let newHash := P.nameHash name
  modify fun s => { s with nameToHash := dictSet name newHash s.nameToHash, hashToName := dictSet newHash name s.hashToName }
  let t ← lift (Iblt.insert P.hash (← get).iblt newHash)
  modify fun s => { s with iblt := t }

/-- `removeFromIblt` (psync_producer_base.py:69-81), and `removeName` (full_psync2017.py:132-139). -/
def removeName (P : Params σ) (name : Name) : M σ Unit := do
  match dictGet name (← get).nameToHash with
  | none => pure ()
  | some hashValue =>
    modify fun s => { s with nameToHash := dictDel name s.nameToHash }
    if (dictGet hashValue (← get).hashToName).isNone then stop (.raised .key)
    else
      modify fun s => { s with hashToName := dictDel hashValue s.hashToName }
      let t ← lift (Iblt.erase P.hash (← get).iblt hashValue)
      modify fun s => { s with iblt := t }

/-! ### FullPSync2017 -/

/-- `_sendSyncInterest` (full_psync2017.py:146-187).  The delayed call that it makes is the action `renew`. -/
def sendSyncInterest (P : Params σ) : M σ Unit := do
  let name := P.syncPrefix ++ [⟨.generic, Iblt.encode P.compress (← get).iblt⟩]
  modify fun s => { s with outstanding := name }
  match P.expressRaises name with
  | some e => stop (.raised e)
  | none => modify fun s => { s with log := s.log ++ [.interest name] }

/-- `self._segmentPublisher.publish`. -/
def publishContent (P : Params σ) (now : Nat) (interestName dataName : Name) (content : Bytes) : M σ Unit := do
  let p ← lift (publish P.pub (← get).pub now interestName dataName content P.freshness)
  modify fun s => { s with pub := p }

/-- `_sendSyncData` (full_psync2017.py:283-328). -/
def sendSyncData (P : Params σ) (now : Nat) (name : Name) (content : Bytes) : M σ Unit := do
  let c ← lift (Component.fromNumber (P.pyHash [⟨.generic, Iblt.encode P.compress (← get).iblt⟩]))
  let dataName := name ++ [c]
  if (← get).outstanding = name then
    modify fun s => { s with outstanding := [] }
    publishContent P now name dataName content
    sendSyncInterest P
  else publishContent P now name dataName content

/-- `difference.listEntries(positive, negative)`. -/
def listDifference (P : Params σ) (other : Table) : M σ (Bool × List Nat × List Nat) := do
  let d ← lift (Iblt.difference (← get).iblt other)
  match ← lift (Iblt.listEntries P.hash P.rounds d) with
  | none => stop .hangs
  | some r => pure r

/-- Whether there are too many differences (full_psync2017.py:248-249, 406-407). -/
def tooMany (P : Params σ) (positive negative : List Nat) : Bool :=
  positive.length + negative.length ≥ P.threshold || (positive.length == 0 && negative.length == 0)

/-- The question to the callback (full_psync2017.py:266-267). -/
def mayAdd (canAdd : Option (σ → Name → List Nat → Except Err Bool)) (name : Name) (negative : List Nat) : M σ Bool :=
  match canAdd with
  | none => pure true
  | some f => do lift (f (← get).app name negative)

/-- The names of the keys, for which the callback agrees (full_psync2017.py:261-268, 416-421). -/
def contentNames (canAdd : Option (σ → Name → List Nat → Except Err Bool)) (negative : List Nat) :
    List Nat → List Name → M σ (List Name)
  | [], names => pure names
  | k :: ks, names => do
    match dictGet k (← get).hashToName with
    | none => stop (.raised .key)
    | some name =>
      if (dictGet name (← get).nameToHash).isSome then
        let ok ← mayAdd canAdd name negative
        contentNames canAdd negative ks (if ok then names ++ [name] else names)
      else contentNames canAdd negative ks names

/-- `_onSyncInterest` (full_psync2017.py:194-281) for an Interest with the name; `prefixSize` is the number of components
of the registered prefix. -/
def onSyncInterest (P : Params σ) (now prefixSize : Nat) (interestName : Name) (hasLifetime : Bool) : M σ Unit := do
  match replyFromStore (← get).pub interestName with
  | some p => modify fun s => { s with pub := p }
  | none =>
    let rest ← lift (getSubName interestName prefixSize)
    if rest.length = 1 then answer interestName
    else if rest.length = 3 then do answer (← lift (getPrefix interestName (-2)))
    else pure ()
where
  /-- From `ibltName = ...` on (full_psync2017.py:223-281). -/
  answer (name : Name) : M σ Unit := do
    let ibltName ← lift (pyIndex name (-1))
    match Iblt.initializeTable P.decompress (Iblt.new P.expected) ibltName.value with
    | .error _ => pure ()
    | .ok iblt =>
      let (ok, positive, negative) ← listDifference P iblt
      if !ok && tooMany P positive negative then
        let names := (← get).nameToHash.map (·.1)
        if names.length > 0 then publishContent P now interestName interestName (encodeState names)
        else pure ()
      else
        let names ← contentNames P.canAddToSyncData negative positive []
        if names.length > 0 then sendSyncData P now name (encodeState names)
        else
          let s ← get
          modify fun s => { s with pending := dictSet name ⟨s.nextEntry, iblt⟩ s.pending, nextEntry := s.nextEntry + 1 }
          if hasLifetime then modify fun s' => { s' with timers := s'.timers ++ [(interestName, s.nextEntry)] }
          else stop (.raised .type)

/-- One key of the loop of `_satisfyPendingInterests` (full_psync2017.py:395-430). -/
def satisfyOne (P : Params σ) (now : Nat) (keyName : Name) : M σ Unit := do
  match dictGet keyName (← get).pending with
  | none => stop (.raised .key)
  | some entry =>
    let (ok, positive, negative) ← listDifference P entry.iblt
    if !ok && tooMany P positive negative then
      modify fun s => { s with removed := entry.entry :: s.removed, pending := dictDel keyName s.pending }
    else
      let names ← contentNames none negative positive []
      if names.length > 0 then
        sendSyncData P now keyName (encodeState names)
        modify fun s => { s with removed := entry.entry :: s.removed, pending := dictDel keyName s.pending }
      else pure ()

/-- `_satisfyPendingInterests` (full_psync2017.py:384-430). -/
def satisfyPendingInterests (P : Params σ) (now : Nat) : M σ Unit := do
  forEach (satisfyOne P now) ((← get).pending.map (·.1))

/-- `publishName` (full_psync2017.py:116-130). -/
def publishName (P : Params σ) (now : Nat) (name : Name) : M σ Unit := do
  if (dictGet name (← get).nameToHash).isSome then pure ()
  else
    insertIntoIblt P name
    satisfyPendingInterests P now

/-- `_deletePendingInterests` (full_psync2017.py:432-446). -/
def deletePendingInterests (name : Name) : M σ Unit := do
  match dictGet name (← get).pending with
  | none => pure ()
  | some entry => modify fun s => { s with removed := entry.entry :: s.removed, pending := dictDel name s.pending }

/-- The question to the callback (full_psync2017.py:356-357). -/
def wanted (P : Params σ) (n : Name) : M σ Bool :=
  match P.canAddReceivedName with
  | none => pure true
  | some f => do
    let (toRemove, ok) ← lift (f (← get).app n)
    forEach (removeName P) toRemove
    pure ok

/-- The loop of `_onSyncData` (full_psync2017.py:352-362); the result is `names`. -/
def receiveNames (P : Params σ) : List Name → List Name → M σ (List Name)
  | [], names => pure names
  | n :: ns, names => do
    if (dictGet n (← get).nameToHash).isSome then receiveNames P ns names
    else
      let ok ← wanted P n
      if ok then
        insertIntoIblt P n
        receiveNames P ns (names ++ [n])
      else receiveNames P ns names

/-- `_onSyncData` (full_psync2017.py:330-382); an exception in the callback is caught. -/
def onSyncData (P : Params σ) (interestName : Name) (content : Bytes) : M σ Unit := do
  deletePendingInterests interestName
  let state ← lift (decodeState content)
  let names ← receiveNames P state []
  if names.length > 0 then
    modify fun s => { s with app := P.onNamesUpdate s.app names, log := s.log ++ [.update names] }
    sendSyncInterest P
  else pure ()

/-- `_delayedRemovePendingEntry` (full_psync2017.py:448-470) for one of the delayed calls. -/
def delayedRemove (i : Nat) : M σ Unit := do
  match (← get).timers[i]? with
  | none => pure ()
  | some (name, entry) =>
    modify fun s => { s with timers := s.timers.eraseIdx i }
    if entry ∈ (← get).removed then pure ()
    else modify fun s => { s with removed := entry :: s.removed, pending := dictDel name s.pending }

/-- What can happen to an instance. -/
inductive Op (σ : Type) where
  | publishName (now : Nat) (name : Name)
  | removeName (name : Name)
  /-- An Interest for the registered prefix. -/
  | interest (now : Nat) (name : Name) (hasLifetime : Bool)
  /-- A content was fetched for a sync Interest. -/
  | data (interestName : Name) (content : Bytes)
  /-- The delayed call of `_sendSyncInterest`. -/
  | renew
  | expire (i : Nat)
  /-- The delayed call of the publisher. -/
  | expireStore (i : Nat)
  /-- The application does something of its own. -/
  | app (f : σ → σ)

/-- One of these. -/
def perform (P : Params σ) : Op σ → M σ Unit
  | .publishName now n => publishName P now n
  | .removeName n => removeName P n
  | .interest now n l => onSyncInterest P now P.syncPrefix.length n l
  | .data n c => onSyncData P n c
  | .renew => sendSyncInterest P
  | .expire i => delayedRemove i
  | .expireStore i => modify fun s => { s with pub := removeLater s.pub i }
  | .app f => modify fun s => { s with app := f s.app }

/-- The constructor (full_psync2017.py:88-114). -/
def start (P : Params σ) (app : σ) : State σ :=
  (sendSyncInterest P { iblt := Iblt.new P.expected, app := app }).2

/-- A history; an exception is caught and logged by the Face, or by the SegmentFetcher, or by the caller. -/
def run (P : Params σ) (app : σ) (ops : List (Op σ)) : State σ :=
  ops.foldl (fun s op => (perform P op s).2) (start P app)

end
end PyNDN.PSync
