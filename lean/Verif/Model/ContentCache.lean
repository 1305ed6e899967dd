import Verif.Model.Match
import Verif.Model.NameUri
/-
Model of `MemoryContentCache` (util/memory_content_cache.py).

A history is a list of calls.  The clock reading, whether encoding the Data packet raises, and whether `face.send`
raises are choices of the environment.  No call is made from inside another: the only application code that the
cache calls is `onDataNotFound`, as the last thing in `_onInterest`, and `face.send` calls no application code.
Simplifications: times are whole milliseconds; the logging calls do not raise; registering with the face is not here
(see Model/Node).
-/
namespace PyNDN
namespace ContentCache

/-- `_Content` (memory_content_cache.py:463-480).  `seq` numbers the `add` calls; the code does not have it, it is there to
state properties. -/
structure Content where
  seq : Nat
  name : Name
  wire : Bytes
  deriving DecidableEq

/-- `_StaleTimeContent` (memory_content_cache.py:487-538). -/
structure StaleContent where
  content : Content
  removal : Int
  expiry : Int
  deriving DecidableEq

/-- `_PendingInterest` (memory_content_cache.py:540-587).  `id` numbers the `storePendingInterest` calls; the code does not
have it. -/
structure Stored where
  id : Nat
  interest : Interest
  face : Nat
  timeout : Int
  deriving DecidableEq

/-- What can be observed. -/
inductive Ev where
  /-- A call read the clock. -/
  | read (time : Int)
  /-- A Data packet with this freshness period was put in the cache. -/
  | added (c : Content) (freshness : Option Nat) (minimumCacheLifetime : Int) (time : Int)
  /-- `_onInterest` sent a packet. -/
  | reply (interest : Interest) (face : Nat) (c : Content) (time : Int)
  /-- `add` sent the packet for a stored Interest. -/
  | answer (id face : Nat) (c : Content) (time : Int)
  | stored (p : Stored) (time : Int)
  /-- `onDataNotFound` was called. -/
  | notFound (pre : Name) (interest : Interest) (face : Nat)
  deriving DecidableEq

/-- The state (memory_content_cache.py:48-69). -/
structure Cache where
  interval : Int := 1000
  nextCleanup : Int := 0
  minLifetime : Int := 0
  stale : List StaleContent := []
  noStale : List Content := []
  pending : List Stored := []
  onDataNotFound : List (List Char) := []
  adds : Nat := 0
  stores : Nat := 0
  trace : List Ev := []

/-- The constructor (memory_content_cache.py:48-69). -/
def new (interval now : Int) : Cache := { interval := interval, nextCleanup := now + interval }

namespace Cache

def emit (n : Cache) (e : Ev) : Cache := { n with trace := n.trace ++ [e] }

/-- `_doCleanup` (memory_content_cache.py:440-457). -/
def doCleanup (n : Cache) (now : Int) : Cache :=
  if now ≥ n.nextCleanup then
    { n with stale := n.stale.dropWhile (fun s => s.removal ≤ now), nextCleanup := now + n.interval }
  else n

/-- The search and insertion in `add` (memory_content_cache.py:263-275): after the last element that is not later.  On a
list that is read from the back. -/
def insertRev (e : StaleContent) : List StaleContent → List StaleContent
  | [] => [e]
  | x :: xs => if x.removal ≤ e.removal then e :: x :: xs else x :: insertRev e xs

/-- The loop in `add` (memory_content_cache.py:280-302), on the reversed table: the Interests that stay, and those that
were answered.  An exception in the match test ends the loop, and so does one in `send`. -/
def answerRev (name : Name) (now : Int) (sendOk : Nat → Bool) : List Stored → List Stored × List Stored
  | [] => ([], [])
  | p :: ps =>
    if now ≥ p.timeout then answerRev name now sendOk ps
    else match p.interest.matchesName name with
      | .error _ => (p :: ps, [])
      | .ok false => let r := answerRev name now sendOk ps; (p :: r.1, r.2)
      | .ok true =>
        if sendOk p.id then let r := answerRev name now sendOk ps; (r.1, p :: r.2) else (p :: ps, [])

/-- `add` (memory_content_cache.py:238-302).  `wire` is what encoding the packet gives. -/
def add (n : Cache) (name : Name) (wire : Except Err Bytes) (freshness : Option Nat) (now : Int) (sendOk : Nat → Bool) : Cache :=
  let n := (n.emit (.read now)).doCleanup now
  match wire with
  | .error _ => n
  | .ok w =>
    let c : Content := ⟨n.adds, name, w⟩
    let n := { n with adds := n.adds + 1 }.emit (.added c freshness n.minLifetime now)
    let n := match freshness with
      | some f =>
        let s : StaleContent := ⟨c, now + max (f : Int) n.minLifetime, now + (f : Int)⟩
        { n with stale := (insertRev s n.stale.reverse).reverse }
      | none => { n with noStale := n.noStale ++ [c] }
    let r := answerRev name now sendOk n.pending.reverse
    { n with pending := r.1.reverse, trace := n.trace ++ r.2.map (fun p => .answer p.id p.face c now) }

/-- `storePendingInterest` (memory_content_cache.py:304-317). -/
def storePendingInterest (n : Cache) (i : Interest) (face : Nat) (now : Int) : Cache :=
  let p : Stored := ⟨n.stores, i, face, now + ((i.lifetime.getD 4000 : Nat) : Int)⟩
  { n with pending := n.pending ++ [p], stores := n.stores + 1 }.emit (.stored p now)

/-- The component that the child selector looks at (memory_content_cache.py:401-404). -/
def child (i : Interest) (c : Content) : Component := (c.name[i.name.length]?).getD (Component.generic [])

/-- `gotBetterMatch` (memory_content_cache.py:406-418). -/
def gotBetterMatch (childSelector : Nat) (component : Component) : Option (Component × Content) → Bool
  | none => true
  | some (x, _) => if childSelector = 0 then component.compare x < 0 else component.compare x > 0

/-- The loop of `_onInterest` (memory_content_cache.py:378-422).  The list is the contents with `isFresh`. -/
def findLoop (i : Interest) : List (Content × Bool) → Option (Component × Content) → Except Err (Option Content)
  | [], selected => .ok (selected.map (·.2))
  | (c, isFresh) :: rest, selected =>
    match i.matchesName c.name with
    | .error e => .error e
    | .ok m =>
      if m ∧ ¬ (i.mustBeFresh ∧ ¬ isFresh) then
        match i.childSelector with
        | none => .ok (some c)
        | some s =>
          findLoop i rest (if gotBetterMatch s (child i c) selected then some (child i c, c) else selected)
      else findLoop i rest selected

/-- The contents in the order of the loop, with `isFresh` (memory_content_cache.py:381-389). -/
def contents (n : Cache) (now : Int) : List (Content × Bool) :=
  n.stale.map (fun s => (s.content, decide (s.expiry > now))) ++ n.noStale.map (fun c => (c, true))

/-- `_onInterest` (memory_content_cache.py:362-438). -/
def onInterest (n : Cache) (pre : Name) (i : Interest) (face : Nat) (now : Int) (sendOk : Bool) : Cache :=
  let n := (n.emit (.read now)).doCleanup now
  match findLoop i (n.contents now) none with
  | .error _ => n
  | .ok (some c) => if sendOk then n.emit (.reply i face c now) else n
  | .ok none => if pre.toUri ∈ n.onDataNotFound then n.emit (.notFound pre i face) else n

end Cache

inductive Action where
  | add (name : Name) (wire : Except Err Bytes) (freshness : Option Nat) (now : Int) (sendOk : Nat → Bool)
  | onInterest (pre : Name) (i : Interest) (face : Nat) (now : Int) (sendOk : Bool)
  | storePendingInterest (i : Interest) (face : Nat) (now : Int)
  | setMinimumCacheLifetime (m : Int)
  /-- `registerPrefix` or `setInterestFilter` with an onDataNotFound (memory_content_cache.py:172-173, 209-214). -/
  | setOnDataNotFound (pre : Name)
  /-- `unregisterAll` (memory_content_cache.py:235-236). -/
  | unregisterAll

def Cache.step (n : Cache) : Action → Cache
  | .add name wire f now ok => n.add name wire f now ok
  | .onInterest pre i face now ok => n.onInterest pre i face now ok
  | .storePendingInterest i face now => n.storePendingInterest i face now
  | .setMinimumCacheLifetime m => { n with minLifetime := m }
  | .setOnDataNotFound pre => { n with onDataNotFound := pre.toUri :: n.onDataNotFound }
  | .unregisterAll => { n with onDataNotFound := [] }

def Cache.run (n : Cache) (as : List Action) : Cache := as.foldl Cache.step n

/-- The states that a new cache can reach. -/
def Reachable (n : Cache) : Prop := ∃ interval now as, n = (new interval now).run as

end ContentCache
end PyNDN
