import Verif.Model.Packet
import Verif.Model.Match
/-
Model of `Node` (node.py) with its tables (impl/pending_interest_table.py, impl/interest_filter_table.py,
impl/registered_prefix_table.py, impl/delayed_call_table.py), as used through `Face` (face.py) or
`ThreadsafeFace` (threadsafe_face.py).

The model is a small-step machine.  Its control stack has a frame for each place in the library's code
that calls the application, so the application (callbacks included) can call back into the library at any
such point.  What the application does, what arrives from the network, the clock, random numbers, and
whether the transport's `connect` and `send` raise, are choices of the environment: the actions.
Simplifications: one thread (ThreadsafeFace runs everything on its event loop); times are whole
milliseconds; the Interest object in the table is not changed by the application; the wire format is
TlvWireFormat and is the default; the `_lpPacket` attached to a packet is left out.
-/
namespace PyNDN

/-- What the model does not fix: SHA-256, the regular expressions of interest filters, whether the transport
is asynchronous (`isAsync`), and whether the face is a `ThreadsafeFace`, whose `callLater` uses the event loop
(threadsafe_face.py:213-225) instead of the `DelayedCallTable`. -/
structure NodeConfig where
  digest : Bytes → Bytes
  regexMatch : Nat → Name → Except Err Bool
  isAsync : Bool
  threadsafe : Bool

/-- A Data packet as the node sees it: the parts that matching looks at, and the content. -/
structure RxData where
  name : Name
  full : Except Err Name
  info : SigInfo
  content : Option Bytes
  deriving DecidableEq

/-- The `onData` and `onTimeout` of a pending Interest: the application's, or those of a
`Node._RegisterResponse` (node.py:759-773). -/
inductive Handler where
  | app
  | register (registeredPrefixId : Nat) (namePrefix : Name) (hasOnInterest hasOnSuccess : Bool)
  deriving DecidableEq

/-- The arguments of `_expressInterestHelper` (node.py:497-499).  `wire` is the result of `wireEncode`. -/
structure ExpressArgs where
  id : Nat
  interest : Interest
  wire : Except Err Bytes
  handler : Handler
  hasOnTimeout : Bool
  hasOnNack : Bool
  deriving DecidableEq

/-- `PendingInterestTable.Entry` (pending_interest_table.py:32-57).  `added` is the time when it was made; the code
does not have it, it is there to state properties. -/
structure PitEntry where
  args : ExpressArgs
  removed : Bool
  added : Int
  deriving DecidableEq

/-- `InterestFilterTable.Entry` (interest_filter_table.py:31-48).  `owner` is the registered prefix id for which
`_RegisterResponse.onData` made it; the code does not have it, it is there to state properties. -/
structure FilterEntry where
  id : Nat
  namePrefix : Name
  regex : Option Nat
  owner : Option Nat
  deriving DecidableEq

/-- `RegisteredPrefixTable._Entry` (registered_prefix_table.py:111-128). -/
structure PrefixEntry where
  id : Nat
  namePrefix : Name
  filterId : Nat
  deriving DecidableEq

/-- A callback in the `DelayedCallTable`: `_processInterestTimeout` of the entry object `ref`, or one of the
application. -/
inductive Delayed where
  | timeout (ref : Nat)
  | app
  deriving DecidableEq

/-- `DelayedCallTable._Entry` (delayed_call_table.py:78-90).  `seq` numbers the `callLater` calls; the code does not
have it, it is there to state properties. -/
structure DelayedEntry where
  time : Int
  seq : Nat
  call : Delayed
  deriving DecidableEq

/-- `Node._ConnectStatus` (node.py:754-757). -/
inductive ConnectStatus where
  | unconnected | requested | complete
  deriving DecidableEq

/-- What `_expressInterestHelper` did about sending. -/
inductive Outcome where
  | removed    -- there was a remove request, so nothing was done
  | local      -- the name is under /local/timeout
  | sent (wire : Bytes)
  | failed     -- raised after the Interest was put on the table
  deriving DecidableEq

/-- What can be observed of an execution. -/
inductive Ev where
  /-- `expressInterest` was called. -/
  | called (id : Nat)
  /-- `_expressInterestHelper` ran for it. -/
  | helper (id : Nat) (o : Outcome)
  /-- A callback of the pending Interest `id` (entry object `ref`) is called. -/
  | onData (id ref : Nat) (data : RxData)
  | onTimeout (id ref : Nat)
  | onNack (id ref : Nat) (nack : NetworkNack)
  /-- The `onInterest` callback of a filter is called. -/
  | onInterest (filterId : Nat) (interest : Interest)
  | registerSuccess (registeredPrefixId : Nat)
  | registerFailed (registeredPrefixId : Nat)
  /-- The delayed call number `seq` was scheduled for the time `due`. -/
  | scheduled (seq : Nat) (due : Int)
  /-- It is run by a `callTimedOut` that read the clock as `now`. -/
  | ran (seq : Nat) (now : Int)
  /-- `putData` or `send` passed bytes to the transport. -/
  | sentRaw (wire : Bytes)
  /-- `removePendingInterest` was called. -/
  | removeCalled (id : Nat)
  /-- `removeRegisteredPrefix` was called. -/
  | prefixRemoveCalled (registeredPrefixId : Nat)
  /-- The test of whether a pending Interest matches a packet raised an exception. -/
  | matchRaised
  /-- A filter was put on the table. -/
  | filterSet (filter : FilterEntry)
  /-- The transport called `onConnected`. -/
  | connectedCalled
  deriving DecidableEq

/-- What application code is running: the main program or event loop, a callback that the library calls
inside `try`, or a delayed call, which it does not. -/
inductive AppCode where
  | main | guarded | unguarded
  deriving DecidableEq

/-- A point in the code where control can be when the application runs. -/
inductive Frame where
  | app (c : AppCode)
  /-- The loop of `_satisfyPendingInterests` (node.py:702-707); `rest` are the entry objects left. -/
  | deliver (data : RxData) (rest : List Nat)
  /-- The loop over the entries for a Nack (node.py:453-458). -/
  | nack (nack : NetworkNack) (rest : List Nat)
  /-- The loop of `callTimedOut` (delayed_call_table.py:64-67). -/
  | timers (now : Int)
  /-- The loop of `_dispatchInterest` (node.py:653-687). -/
  | dispatch (interest : Interest) (rest : List FilterEntry)
  /-- The loop of `onConnected` (node.py:160-166). -/
  | connected
  /-- `expressInterest` after the first `_expressInterestHelper` (node.py:141). -/
  | setComplete
  deriving DecidableEq

/-- The state of a Node (node.py:61-75) and of its execution.  `entries` are all entry objects ever made, and
a reference to one is its index.  `tokens` are ids got from `getNextEntryId` for a call that was not made yet
(ThreadsafeFace gives the id to the application before the call is dispatched).  `next` is the position of the
loop over `queue` (`_onConnectedCallbacks`).  `connecting` is true from `transport.connect` until the transport
calls `onConnected`. -/
structure Node where
  entries : List PitEntry := []
  pit : List Nat := []
  removeRequests : List Nat := []
  filters : List FilterEntry := []
  prefixes : List PrefixEntry := []
  prefixRemoveRequests : List Nat := []
  delayed : List DelayedEntry := []
  loopTimers : List DelayedEntry := []
  seq : Nat := 0
  lastId : Nat := 0
  tokens : List Nat := []
  status : ConnectStatus := .unconnected
  connecting : Bool := false
  queue : List ExpressArgs := []
  next : Nat := 0
  loopback : Bool := false
  now : Int := 0
  stack : List Frame := [.app .main]
  trace : List Ev := []

namespace Node

def emit (n : Node) (e : Ev) : Node := { n with trace := n.trace ++ [e] }
def push (n : Node) (f : Frame) : Node := { n with stack := f :: n.stack }
def pop (n : Node) : Node := { n with stack := n.stack.tail }

/-- Whether a frame is application code. -/
def isApp : Frame → Bool
  | .app _ => true
  | _ => false

/-- An exception leaves the library: it goes to the application code that called it.  (No library frame between
catches it: the `try` statements are only around the calls of the application's callbacks.) -/
def unwind (n : Node) : Node := { n with stack := n.stack.dropWhile (fun f => !isApp f) }

/-- `getNextEntryId` (node.py:628-641). -/
def nextId (n : Node) : Node := { n with lastId := n.lastId + 1 }

/-- `entry.setIsRemoved()` (pending_interest_table.py:106-110). -/
def markRemoved (n : Node) (ref : Nat) : Node :=
  { n with entries := n.entries.modify ref (fun e => { e with removed := true }) }

/-- The id of an entry object. -/
def idOf (n : Node) (ref : Nat) : Nat := (n.entries[ref]?.map (·.args.id)).getD 0

/-! ### DelayedCallTable -/

/-- The search and insertion of `callLater` (delayed_call_table.py:41-52): after the last element that is not
later.  On a list that is read from the back. -/
def insertDelayedRev (e : DelayedEntry) : List DelayedEntry → List DelayedEntry
  | [] => [e]
  | x :: xs => if x.time ≤ e.time then e :: x :: xs else x :: insertDelayedRev e xs

/-- `DelayedCallTable.callLater` (delayed_call_table.py:32-52), or the event loop's `call_later` for a
`ThreadsafeFace`. -/
def callLater (C : NodeConfig) (n : Node) (delay : Int) (call : Delayed) : Node :=
  let e : DelayedEntry := ⟨n.now + delay, n.seq, call⟩
  let n := { n with seq := n.seq + 1 }.emit (.scheduled e.seq e.time)
  if C.threadsafe then { n with loopTimers := n.loopTimers ++ [e] }
  else { n with delayed := (insertDelayedRev e n.delayed.reverse).reverse }

/-! ### Interest filters -/

/-- `InterestFilter.doesMatch` (interest_filter.py:56-93). -/
def doesMatch (C : NodeConfig) (f : FilterEntry) (name : Name) : Except Err Bool :=
  if name.length < f.namePrefix.length then .ok false
  else match f.regex with
    | some r => if !f.namePrefix.matches name then .ok false else C.regexMatch r (name.drop f.namePrefix.length)
    | none => .ok (f.namePrefix.matches name)

/-- `InterestFilterTable.getMatchedFilters` (interest_filter_table.py:99-113). -/
def matchedFilters (C : NodeConfig) (name : Name) : List FilterEntry → Except Err (List FilterEntry)
  | [] => .ok []
  | f :: fs => do
    let m ← doesMatch C f name
    let rest ← matchedFilters C name fs
    if m then return f :: rest else return rest

/-- `InterestFilterTable.unsetInterestFilter` (interest_filter_table.py:115-137). -/
def unsetInterestFilter (n : Node) (id : Nat) : Node :=
  { n with filters := n.filters.filter (fun f => f.id ≠ id) }

/-- `_dispatchInterest` (node.py:643-687), up to its loop; true if an exception was raised. -/
def dispatchInterest (C : NodeConfig) (n : Node) (i : Interest) : Node × Bool :=
  match matchedFilters C i.name n.filters with
  | .error _ => (n, true)
  | .ok fs => (n.push (.dispatch i fs), false)

/-! ### The pending interest table -/

/-- The loop over the table from its end (pending_interest_table.py:170-182, 203-218): the entries that stay, those
extracted in order, and whether the test raised.  On the reversed table. -/
def extractRev (p : Nat → Except Err Bool) : List Nat → List Nat × List Nat × Bool
  | [] => ([], [], false)
  | r :: rs =>
    match p r with
    | .error _ => (r :: rs, [], true)
    | .ok b =>
      let (kept, taken, raised) := extractRev p rs
      if b then (kept, r :: taken, raised) else (r :: kept, taken, raised)

/-- `extractEntriesForExpressedInterest` and `extractEntriesForNackInterest`
(pending_interest_table.py:159-218) for the test `p`. -/
def extract (n : Node) (p : Nat → Except Err Bool) : Node × List Nat × Bool :=
  let (kept, taken, raised) := extractRev p n.pit.reverse
  (taken.foldl markRemoved { n with pit := kept.reverse }, taken, raised)

/-- `pendingInterest.getInterest().matchesData(data)` (interest.py:761-835). -/
def matchesEntry (n : Node) (d : RxData) (ref : Nat) : Except Err Bool :=
  match n.entries[ref]? with
  | none => .ok false
  | some e => e.args.interest.matchesData d.name d.full d.info

/-- The test of `extractEntriesForNackInterest` (pending_interest_table.py:207-210). -/
def nackEntry (n : Node) (encoding : Bytes) (ref : Nat) : Except Err Bool :=
  match n.entries[ref]? with
  | none => .ok false
  | some e =>
    if e.args.hasOnNack then
      match e.args.wire with
      | .error x => .error x
      | .ok w => .ok (w == encoding)
    else .ok false

/-- `PendingInterestTable.removePendingInterest` (pending_interest_table.py:220-267). -/
def removePendingInterest (n : Node) (id : Nat) : Node :=
  let gone := n.pit.filter (fun r => n.idOf r = id)
  let n1 := gone.foldl markRemoved { n with pit := n.pit.filter (fun r => ¬ n.idOf r = id) }
  if gone = [] ∧ id ∉ n.removeRequests then { n1 with removeRequests := n.removeRequests ++ [id] } else n1

/-- `Name("/local/timeout")` (node.py:71). -/
def timeoutPrefix : Name :=
  [⟨.generic, [108, 111, 99, 97, 108]⟩, ⟨.generic, [116, 105, 109, 101, 111, 117, 116]⟩]

/-- The ids of the call are not unused any more. -/
def consume (n : Node) (a : ExpressArgs) : Node :=
  { n with tokens := match a.handler with
      | .app => n.tokens.erase a.id
      | .register regId _ _ _ => (n.tokens.erase a.id).erase regId }

/-- The first part of `_expressInterestHelper` (node.py:526-542) with `PendingInterestTable.add`
(pending_interest_table.py:154-157), when there is no remove request for the id. -/
def addEntry (C : NodeConfig) (n : Node) (a : ExpressArgs) : Node :=
  let ref := n.entries.length
  let n := { n with entries := n.entries ++ [(⟨a, false, n.now⟩ : PitEntry)], pit := n.pit ++ [ref] }
  if a.hasOnTimeout ∨ a.interest.lifetime ≠ none then
    n.callLater C (((a.interest.lifetime.getD 4000 : Nat) : Int)) (.timeout ref)
  else n

/-- `_expressInterestHelper` (node.py:497-554) with `PendingInterestTable.add`
(pending_interest_table.py:121-157); true if it raised. -/
def expressHelper (C : NodeConfig) (n : Node) (a : ExpressArgs) (sendOk : Bool) : Node × Bool :=
  let n := n.consume a
  if a.id ∈ n.removeRequests then
    ({ n with removeRequests := n.removeRequests.erase a.id }.emit (.helper a.id .removed), false)
  else
    let n := n.addEntry C a
    if timeoutPrefix.matches a.interest.name then (n.emit (.helper a.id .local), false)
    else match a.wire with
      | .error _ => (n.emit (.helper a.id .failed), true)
      | .ok w =>
        if w.length > maxNdnPacketSize ∨ ¬ sendOk then (n.emit (.helper a.id .failed), true)
        else
          let n := n.emit (.helper a.id (.sent w))
          if n.loopback then n.dispatchInterest C a.interest else (n, false)

/-- After a library function that may have raised. -/
def finish (r : Node × Bool) : Node := if r.2 then r.1.unwind else r.1

/-- `Node.expressInterest` (node.py:86-178), after the nonce was set. -/
def expressArgs (C : NodeConfig) (n : Node) (a : ExpressArgs) (connectOk sendOk : Bool) : Node :=
  let n := n.emit (.called a.id)
  match n.status with
  | .complete => finish (n.expressHelper C a sendOk)
  | .unconnected =>
    if !C.isAsync then
      if !connectOk then (n.consume a).unwind
      else finish ((n.push .setComplete).expressHelper C a sendOk)
    else
      let n := { n.consume a with status := .requested, queue := n.queue ++ [a], connecting := connectOk }
      if !connectOk then n.unwind else n
  | .requested =>
    if !C.isAsync then
      if !connectOk then (n.consume a).unwind
      else finish ((n.push .setComplete).expressHelper C a sendOk)
    else { n.consume a with queue := n.queue ++ [a] }

/-- The copy of the Interest with the nonce set (node.py:122-125) and its encoding. -/
def makeArgs (id : Nat) (i : Interest) (h : Handler) (hasOnTimeout hasOnNack : Bool) (rnd : Nat → UInt8) :
    ExpressArgs :=
  let i := if blobSize i.nonce = 0 then { i with nonce := some [rnd 0, rnd 1, rnd 2, rnd 3] } else i
  ⟨id, i, (encodeInterest i rnd).map (·.1), h, hasOnTimeout, hasOnNack⟩

/-! ### Registered prefixes -/

/-- `RegisteredPrefixTable.removeRegisteredPrefix` (registered_prefix_table.py:67-109). -/
def removeRegisteredPrefix (n : Node) (id : Nat) : Node :=
  let gone := n.prefixes.filter (fun p => p.id = id)
  let n1 := gone.foldl (fun n p => if p.filterId > 0 then n.unsetInterestFilter p.filterId else n)
    { n with prefixes := n.prefixes.filter (fun p => ¬ p.id = id) }
  if gone = [] ∧ id ∉ n.prefixRemoveRequests then
    { n1 with prefixRemoveRequests := n.prefixRemoveRequests ++ [id] }
  else n1

/-- `_RegisterResponse.onData` (node.py:775-831): exceptions that are not ValueError go to the `try` in
`_satisfyPendingInterests`. -/
def registerOnData (n : Node) (d : RxData) (regId : Nat) (namePrefix : Name) (hasOnInterest hasOnSuccess : Bool) : Node :=
  match (match d.content with | none => Except.error Err.type | some b => decodeControlResponse b) with
  | .error .value => (n.emit (.registerFailed regId)).push (.app .guarded)
  | .error _ => n
  | .ok response =>
    if response.statusCode ≠ some 200 then (n.emit (.registerFailed regId)).push (.app .guarded)
    else
      let (n, filterId) :=
        if regId ≠ 0 ∧ hasOnInterest then
          let n := n.nextId
          let f : FilterEntry := ⟨n.lastId, namePrefix, none, some regId⟩
          ({ n with filters := n.filters ++ [f] }.emit (.filterSet f), n.lastId)
        else (n, 0)
      if regId ≠ 0 ∧ regId ∈ n.prefixRemoveRequests then
        let n := { n with prefixRemoveRequests := n.prefixRemoveRequests.erase regId }
        if filterId > 0 then n.unsetInterestFilter filterId else n
      else
        let n := if regId ≠ 0 then { n with prefixes := n.prefixes ++ [(⟨regId, namePrefix, filterId⟩ : PrefixEntry)] } else n
        if hasOnSuccess then (n.emit (.registerSuccess regId)).push (.app .guarded) else n

/-! ### The library continues -/

/-- `pendingInterest.getOnData()(...)` for the entry object `ref` (node.py:705). -/
def callOnData (n : Node) (ref : Nat) (d : RxData) : Node :=
  match n.entries[ref]? with
  | none => n
  | some e =>
    let n := n.emit (.onData e.args.id ref d)
    match e.args.handler with
    | .app => n.push (.app .guarded)
    | .register regId p hi hs => n.registerOnData d regId p hi hs

/-- `_processInterestTimeout` (node.py:619-626), `removeEntry` (pending_interest_table.py:269-295) and `callTimeout`
(pending_interest_table.py:95-104). -/
def processTimeout (n : Node) (ref : Nat) : Node :=
  match n.entries[ref]? with
  | none => n
  | some e =>
    if e.removed then n
    else if ref ∉ n.pit then n
    else
      let n := { n.markRemoved ref with pit := n.pit.erase ref }
      if e.args.hasOnTimeout then
        let n := n.emit (.onTimeout e.args.id ref)
        match e.args.handler with
        | .app => n.push (.app .guarded)
        | .register regId _ _ _ => (n.emit (.registerFailed regId)).push (.app .guarded)
      else n

/-- Run a delayed call. -/
def runDelayed (n : Node) (e : DelayedEntry) (now : Int) : Node :=
  let n := n.emit (.ran e.seq now)
  match e.call with
  | .timeout ref => n.processTimeout ref
  | .app => n.push (.app .unguarded)

/-- One step of the library code on top of the stack. -/
def lib (C : NodeConfig) (n : Node) (sendOk : Bool) : Node :=
  match n.stack with
  | .deliver d (r :: rest) :: s => ({ n with stack := .deliver d rest :: s }).callOnData r d
  | .deliver _ [] :: s => { n with stack := s }
  | .nack k (r :: rest) :: s =>
    ({ n with stack := .nack k rest :: s }.emit (.onNack (n.idOf r) r k)).push (.app .guarded)
  | .nack _ [] :: s => { n with stack := s }
  | .timers now :: s =>
    match n.delayed with
    | e :: es => if e.time ≤ now then { n with delayed := es }.runDelayed e now else { n with stack := s }
    | [] => { n with stack := s }
  | .dispatch i (f :: rest) :: s =>
    ({ n with stack := .dispatch i rest :: s }.emit (.onInterest f.id i)).push (.app .guarded)
  | .dispatch _ [] :: s => { n with stack := s }
  | .connected :: s =>
    match n.queue[n.next]? with
    | some a => finish ({ n with next := n.next + 1 }.expressHelper C a sendOk)
    | none => { n with queue := [], next := 0, status := .complete, stack := s }
  | .setComplete :: s => { n with status := .complete, stack := s }
  | _ => n

/-! ### Packets from the network -/

/-- A decoded packet. -/
inductive Received where
  | interest (i : Interest) (wire : Bytes)
  | data (d : RxData)
  | other
  deriving DecidableEq

/-- The decoding in `onReceivedElement` (node.py:423-437) of the element or fragment.  The full name of a decoded
Data is its name and the digest of the cached encoding, which is the element. -/
def decodeFragment (C : NodeConfig) (element : Bytes) : Except Err Received := do
  if ← runDec (peekType 5 element.length) element then
    let (i, _) ← decodeInterest { maxSuffix := none } element
    return .interest i element
  else if ← runDec (peekType 6 element.length) element then
    let (d, _) ← decodeData {} element
    return .data ⟨d.name, .ok (d.name ++ [⟨.implicit, C.digest element⟩]), d.signature.info, d.content⟩
  else return .other

/-- The first part of `onReceivedElement` (node.py:403-444): the packet and the Nack header, if any. -/
def decodeElement (C : NodeConfig) (element : Bytes) : Except Err (Received × Option NetworkNack) :=
  match element with
  | [] => .error .index
  | b :: _ =>
    if b = 100 then do
      let lp ← decodeLpPacket element
      match lp.fragment with
      | none => .error .type
      | some f =>
        let r ← decodeFragment C f
        return (r, lp.firstNack)
    else do
      let r ← decodeFragment C element
      return (r, none)

/-- `_satisfyPendingInterests` (node.py:689-709), up to its loop; also says whether an exception was raised and
whether there was a match. -/
def satisfy (n : Node) (d : RxData) : Node × Bool × Bool :=
  match n.extract (n.matchesEntry d) with
  | (n, _, true) => (n.emit .matchRaised, true, false)
  | (n, taken, false) => (n.push (.deliver d taken), false, !taken.isEmpty)

/-- `onReceivedElement` (node.py:403-467), up to its loops. -/
def onReceivedElement (C : NodeConfig) (n : Node) (element : Bytes) : Node × Bool :=
  match decodeElement C element with
  | .error _ => (n, true)
  | .ok (r, some k) =>
    match r with
    | .interest _ wire =>
      match n.extract (n.nackEntry wire) with
      | (n, _, true) => (n.emit .matchRaised, true)
      | (n, taken, false) => (n.push (.nack k taken), false)
    | _ => (n, false)
  | .ok (.interest i _, none) => n.dispatchInterest C i
  | .ok (.data d, none) => ((n.satisfy d).1, (n.satisfy d).2.1)
  | .ok (.other, none) => (n, false)

/-- `Node.send` (node.py:350-362). -/
def send (n : Node) (w : Bytes) (sendOk : Bool) : Node × Bool :=
  if w.length > maxNdnPacketSize ∨ ¬ sendOk then (n, true) else (n.emit (.sentRaw w), false)

/-- `Node.putData` (node.py:301-329). -/
def putData (n : Node) (d : RxData) (wire : Except Err Bytes) (sendOk : Bool) : Node × Bool :=
  let put (n : Node) : Node × Bool :=
    match wire with
    | .error _ => (n, true)
    | .ok w => n.send w sendOk
  if n.loopback then
    match n.satisfy d with
    | (n, true, _) => (n, true)
    | (n, false, true) => (n, false)
    | (n, false, false) => put n.pop
  else put n

/-- `Node.putNack` (node.py:331-348). -/
def putNack (n : Node) (wire : Except Err Bytes) (k : NetworkNack) (sendOk : Bool) : Node × Bool :=
  match wire >>= fun w => encodeLpNack w k with
  | .error _ => (n, true)
  | .ok w => n.send w sendOk

/-! ### Actions -/

inductive Action where
  /-- The library code on top of the stack continues. -/
  | lib (sendOk : Bool)
  /-- The application code on top of the stack returns, or raises an exception. -/
  | ret
  | raise
  /-- `getNextEntryId` for a later `express`, `registerPrefix` or `setInterestFilter` (face.py:221,333,423). -/
  | allocId
  | express (id : Nat) (i : Interest) (hasOnTimeout hasOnNack : Bool) (rnd : Nat → UInt8) (connectOk sendOk : Bool)
  | removePendingInterest (id : Nat)
  /-- `registerPrefix` (node.py:209-253, 556-606); `command` is the signed command Interest. -/
  | registerPrefix (id : Nat) (namePrefix : Name) (hasOnInterest hasOnSuccess : Bool) (command : Interest)
      (rnd : Nat → UInt8) (connectOk sendOk : Bool)
  | removeRegisteredPrefix (id : Nat)
  | setInterestFilter (id : Nat) (namePrefix : Name) (regex : Option Nat)
  | unsetInterestFilter (id : Nat)
  | putData (d : RxData) (wire : Except Err Bytes) (sendOk : Bool)
  /-- `wire` is what `interest.wireEncode()` gives. -/
  | putNack (wire : Except Err Bytes) (nack : NetworkNack) (sendOk : Bool)
  | send (wire : Bytes) (sendOk : Bool)
  | callLater (delay : Int)
  /-- The transport has received an element. -/
  | receive (element : Bytes)
  /-- `callTimedOut` (delayed_call_table.py:54-67), from `processEvents`. -/
  | callTimedOut
  /-- The event loop runs the timer number `k` of a ThreadsafeFace, if it is due. -/
  | fireTimer (k : Nat)
  /-- The transport calls `onConnected`. -/
  | connected
  | setLoopback (b : Bool)
  /-- The clock changes. -/
  | clock (t : Int)

/-- A step.  An action that is not possible in the state changes nothing. -/
def step (C : NodeConfig) (n : Node) (a : Action) : Node :=
  match n.stack with
  | .app c :: s =>
    match a with
    | .lib _ => n
    | .ret => if c = .main then n else { n with stack := s }
    | .raise =>
      match c with
      | .main => n
      | .guarded => { n with stack := s }
      | .unguarded => { n with stack := s }.unwind
    | .allocId => let n := n.nextId; { n with tokens := n.tokens ++ [n.lastId] }
    | .express id i ht hn rnd connectOk sendOk =>
      if id ∈ n.tokens then
        n.expressArgs C (makeArgs id i .app ht hn rnd) connectOk sendOk
      else n
    | .removePendingInterest id => (n.emit (.removeCalled id)).removePendingInterest id
    | .registerPrefix id p hi hs command rnd connectOk sendOk =>
      if id ∈ n.tokens then
        let n := n.nextId
        let n := { n with tokens := n.tokens ++ [n.lastId] }
        n.expressArgs C (makeArgs n.lastId command (.register id p hi hs) true false rnd) connectOk sendOk
      else n
    | .removeRegisteredPrefix id => (n.emit (.prefixRemoveCalled id)).removeRegisteredPrefix id
    | .setInterestFilter id p regex =>
      if id ∈ n.tokens then
        { n.emit (.filterSet ⟨id, p, regex, none⟩) with
          tokens := n.tokens.erase id, filters := n.filters ++ [(⟨id, p, regex, none⟩ : FilterEntry)] }
      else n
    | .unsetInterestFilter id => n.unsetInterestFilter id
    | .putData d wire sendOk => finish (n.putData d wire sendOk)
    | .putNack w k sendOk => finish (n.putNack w k sendOk)
    | .send w sendOk => finish (n.send w sendOk)
    | .callLater delay => n.callLater C delay .app
    | .receive element => finish (n.onReceivedElement C element)
    | .callTimedOut => n.push (.timers n.now)
    | .fireTimer k =>
      match n.loopTimers[k]? with
      | some e => if e.time ≤ n.now then { n with loopTimers := n.loopTimers.eraseIdx k }.runDelayed e n.now else n
      | none => n
    | .connected => if n.connecting then ({ n with connecting := false }.emit .connectedCalled).push .connected else n
    | .setLoopback b => { n with loopback := b }
    | .clock t => { n with now := t }
  | _ =>
    match a with
    | .lib sendOk => n.lib C sendOk
    | _ => n

/-- An execution. -/
def run (C : NodeConfig) (n : Node) : List Action → Node
  | [] => n
  | a :: as => (n.step C a).run C as

/-- The states that a new Node can reach. -/
def Reachable (C : NodeConfig) (n : Node) : Prop := ∃ as, n = run C {} as

end Node
end PyNDN
