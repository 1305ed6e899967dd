import Verif.Model.Node
/-
Vocabulary to state properties of an execution of a Node: which events are callbacks of an Interest, and so on.
-/
namespace PyNDN
namespace Node

/-- The event is a call of `onData`, `onTimeout` or `onNetworkNack` of the Interest with this id. -/
def isCallbackOf (id : Nat) : Ev → Bool
  | .onData i _ _ => i == id
  | .onTimeout i _ => i == id
  | .onNack i _ _ => i == id
  | _ => false

/-- The event is a call of the `onInterest` of the filter with this id. -/
def isFilterCallOf (id : Nat) : Ev → Bool
  | .onInterest i _ => i == id
  | _ => false

/-- The ids of the Interests that the application expressed, in order. -/
def calledIds (t : List Ev) : List Nat := t.filterMap (fun e => match e with | .called i => some i | _ => none)

/-- The ids of the Interests that were processed (put on the table and sent, or dropped because of a remove
request), in order. -/
def helperIds (t : List Ev) : List Nat := t.filterMap (fun e => match e with | .helper i _ => some i | _ => none)

/-- The application code is running. -/
def appRuns (n : Node) : Prop := ∃ c s, n.stack = .app c :: s

/-- What is pending. -/
def pending (n : Node) : List PitEntry := n.pit.filterMap (fun r => n.entries[r]?)

/-- The ids of the Interests whose `onData` was called with this Data packet, in order. -/
def dataCalls (d : RxData) (t : List Ev) : List Nat :=
  t.filterMap (fun e => match e with | .onData i _ d' => if d' = d then some i else none | _ => none)

/-- The ids of the Interests whose `onNetworkNack` was called with this Nack, in order. -/
def nackCalls (k : NetworkNack) (t : List Ev) : List Nat :=
  t.filterMap (fun e => match e with | .onNack i _ k' => if k' = k then some i else none | _ => none)

/-- The Interest of a table entry matches the Data packet. -/
def matchesData (d : RxData) (e : PitEntry) : Prop := e.args.interest.matchesData d.name d.full d.info = .ok true

instance (d : RxData) (e : PitEntry) : Decidable (matchesData d e) := inferInstanceAs (Decidable (_ = _))

/-- The Interest of a table entry is the one with this encoding, and has an `onNetworkNack`. -/
def matchesNack (wire : Bytes) (e : PitEntry) : Prop := e.args.hasOnNack = true ∧ e.args.wire = .ok wire

instance (w : Bytes) (e : PitEntry) : Decidable (matchesNack w e) := inferInstanceAs (Decidable (_ ∧ _))

/-- The ids of the Interests taken from the table for a packet, whose callbacks the library is calling. -/
def beingDelivered (n : Node) : List Nat :=
  n.stack.flatMap (fun f => match f with
    | .deliver _ rest => rest.map n.idOf
    | .nack _ rest => rest.map n.idOf
    | _ => [])

/-- The delayed calls that were scheduled, with their due times. -/
def scheduledCalls (t : List Ev) : List (Nat × Int) :=
  t.filterMap (fun e => match e with | .scheduled k due => some (k, due) | _ => none)

/-- The delayed calls that were run, with the clock that `callTimedOut` had read. -/
def ranCalls (t : List Ev) : List (Nat × Int) :=
  t.filterMap (fun e => match e with | .ran k now => some (k, now) | _ => none)

/-- The Interest of a table entry has a lifetime or an onTimeout callback. -/
def hasTimer (e : PitEntry) : Prop := e.args.hasOnTimeout = true ∨ e.args.interest.lifetime ≠ none

/-- When it times out. -/
def timesOutAt (e : PitEntry) : Int := e.added + ((e.args.interest.lifetime.getD 4000 : Nat) : Int)

/-- The filter matches the name: the values of the components of its prefix are the first of the name, and its
regular expression, if it has one, matches the rest of the name. -/
def filterMatches (C : NodeConfig) (f : FilterEntry) (name : Name) : Prop :=
  f.namePrefix.map (·.value) <+: name.map (·.value) ∧
  ∀ r, f.regex = some r → C.regexMatch r (name.drop f.namePrefix.length) = .ok true

/-- The ids of the filters whose `onInterest` was called with this Interest, in order. -/
def filterCalls (i : Interest) (t : List Ev) : List Nat :=
  t.filterMap (fun e => match e with | .onInterest k i' => if i' = i then some k else none | _ => none)

/-- The filters that matched an Interest, whose callbacks the library is about to call. -/
def beingDispatched (n : Node) : List FilterEntry :=
  n.stack.flatMap (fun f => match f with
    | .dispatch _ rest => rest
    | _ => [])

/-- What the application was told about the registration `g`, in order: true for `onRegisterSuccess`, false for
`onRegisterFailed`. -/
def registerOutcomes (g : Nat) (t : List Ev) : List Bool :=
  t.filterMap (fun e => match e with
    | .registerSuccess i => if i = g then some true else none
    | .registerFailed i => if i = g then some false else none
    | _ => none)

/-- The Data packet is a ControlResponse with the status code 200. -/
def responseOk (d : RxData) : Prop := ∃ b c, d.content = some b ∧ decodeControlResponse b = .ok c ∧ c.statusCode = some 200

/-- The Data packet is a ControlResponse with another status code, or its content is not a ControlResponse. -/
def responseFails (d : RxData) : Prop :=
  ∃ b, d.content = some b ∧ (decodeControlResponse b = .error .value ∨ ∃ c, decodeControlResponse b = .ok c ∧ c.statusCode ≠ some 200)

end Node
end PyNDN
