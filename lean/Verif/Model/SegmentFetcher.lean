import Verif.Model.Match
/-
Model of `SegmentFetcher` (util/segment_fetcher.py).

A history is a list of calls by the face and by the key chain.  The face calls at most one of onData and onTimeout for an Interest
(C28), which is the guard of the actions; here it may call onData with any packet.  The verification, and whether
`face.expressInterest` raises, are choices of the environment; it may raise after it has put the Interest on the pending table (see
Model/Node), in which case one of the callbacks is still called.
Simplifications: a callback of the application does not call into the fetcher, which it has no reference to.  `KeyChain.verifyData`
calls one of its callbacks, once, or none; a call from inside `verifyData` is a call right after it.
-/
namespace PyNDN
namespace Fetch

/-- `ErrorCode` (segment_fetcher.py:124-130). -/
inductive ErrorCode where
  | interestTimeout
  | dataHasNoSegment
  | segmentVerificationFailed
  deriving DecidableEq

/-- How a call of `face.expressInterest` ends. -/
inductive Express where
  | ok
  /-- It raises; `tabled` tells whether the Interest is on the pending table. -/
  | raises (tabled : Bool)
  deriving DecidableEq

/-- How the verification of a packet in `_onData` ends. -/
inductive Check where
  | yes
  | no
  | raises
  deriving DecidableEq

inductive Ev where
  /-- `expressInterest` was called. -/
  | express (id : Nat) (interest : Interest)
  | onData (id : Nat) (data : Data)
  | onTimeout (id : Nat)
  /-- The verification accepted the packet. -/
  | verified (data : Data)
  | complete (content : Bytes)
  | error (code : ErrorCode)
  /-- An exception ended the call.  It is logged by the caller (`fetch` passes it on to the application). -/
  | raised
  deriving DecidableEq

/-- The state (segment_fetcher.py:115-122).  `outstanding`: the Interests for which the face has not called back.  `verifying`: the packets
for which the key chain has not called back. -/
structure Fetcher where
  hasKeyChain : Bool
  parts : List (Option Bytes) := []
  outstanding : List (Nat × Interest) := []
  verifying : List (Nat × Interest × Data) := []
  expressed : Nat := 0
  trace : List Ev := []

namespace Fetcher

def emit (n : Fetcher) (e : Ev) : Fetcher := { n with trace := n.trace ++ [e] }

/-- A call of `face.expressInterest`. -/
def express (n : Fetcher) (i : Interest) (r : Express) : Fetcher :=
  let n := { n with expressed := n.expressed + 1 }.emit (.express n.expressed i)
  match r with
  | .ok => { n with outstanding := n.outstanding ++ [(n.expressed - 1, i)] }
  | .raises tabled => { n with outstanding := n.outstanding ++ if tabled then [(n.expressed - 1, i)] else [] }.emit .raised

/-- `_fetchFirstSegment` (segment_fetcher.py:197-201).  The nonce of the copy is cleared because fields change. -/
def fetchFirstSegment (n : Fetcher) (base : Interest) (r : Express) : Fetcher :=
  n.express { base with childSelector := some 1, mustBeFresh := true, nonce := none } r

/-- `_fetchNextSegment` (segment_fetcher.py:203-211). -/
def fetchNextSegment (n : Fetcher) (original : Interest) (dataName : Name) (segment : Nat) (r : Express) : Fetcher :=
  match getPrefix dataName (-1), Component.fromSegment segment with
  | .ok p, .ok c => n.express { original with childSelector := some 0, mustBeFresh := false, name := p ++ [c], nonce := none } r
  | _, _ => n.emit .raised

/-- `_endsWithSegmentNumber` (segment_fetcher.py:328-337). -/
def endsWithSegmentNumber (name : Name) : Bool :=
  match pyIndex name (-1) with
  | .ok c => c.isSegment
  | .error _ => false

/-- The concatenation (segment_fetcher.py:291-299).  A null Blob raises TypeError at line 298. -/
def concat : List (Option Bytes) → Option Bytes
  | [] => some []
  | none :: _ => none
  | some b :: ps => (concat ps).map (b ++ ·)

/-- `_onVerified` (segment_fetcher.py:236-309). -/
def onVerified (n : Fetcher) (data : Data) (original : Interest) (r : Express) : Fetcher :=
  if !endsWithSegmentNumber data.name then n.emit (.error .dataHasNoSegment)
  else match pyIndex data.name (-1) >>= Component.toSegment with
    | .error _ => n.emit (.error .dataHasNoSegment)
    | .ok current =>
      let expected := n.parts.length
      if current ≠ expected then n.fetchNextSegment original data.name expected r
      else
        let n := { n with parts := n.parts ++ [data.content] }
        if data.metaInfo.finalBlockId.value.length > 0 then
          match data.metaInfo.finalBlockId.toSegment with
          | .error _ => n.emit (.error .dataHasNoSegment)
          | .ok final =>
            if current = final then
              match concat n.parts with
              | some content => n.emit (.complete content)
              | none => n.emit .raised
            else n.fetchNextSegment original data.name (expected + 1) r
        else n.fetchNextSegment original data.name (expected + 1) r

/-- `_onData` (segment_fetcher.py:213-234).  With a key chain, `check` only tells whether `verifyData` raises at once. -/
def onData (n : Fetcher) (id : Nat) (original : Interest) (data : Data) (check : Check) (r : Express) : Fetcher :=
  if n.hasKeyChain then
    if check = .raises then n.emit .raised else { n with verifying := n.verifying ++ [(id, original, data)] }
  else match check with
    | .yes => (n.emit (.verified data)).onVerified data original r
    | .no => n.emit (.error .segmentVerificationFailed)
    | .raises => n.emit .raised

end Fetcher

inductive Action where
  | data (id : Nat) (data : Data) (check : Check) (r : Express)
  | timeout (id : Nat)
  /-- The key chain calls `_onVerified` (true) or `_onValidationFailed` (false) for the packet received for the Interest `id`. -/
  | validated (id : Nat) (good : Bool) (r : Express)

namespace Fetcher

/-- Take the first entry with the number out of a list. -/
def take {α : Type} (id : Nat) : List (Nat × α) → Option (α × List (Nat × α))
  | [] => none
  | (k, a) :: l => if k = id then some (a, l) else (take id l).map (fun x => (x.1, (k, a) :: x.2))

/-- A call by the face or the key chain.  A call which they do not make does nothing. -/
def step (n : Fetcher) : Action → Fetcher
  | .data id d check r =>
    match take id n.outstanding with
    | none => n
    | some (i, rest) =>
      { n with outstanding := rest }.emit (.onData id d) |>.onData id i d check r
  | .timeout id =>
    match take id n.outstanding with
    | none => n
    -- `_onTimeout` (segment_fetcher.py:320-326).
    | some (_, rest) => { n with outstanding := rest }.emit (.onTimeout id) |>.emit (.error .interestTimeout)
  | .validated id good r =>
    match take id n.verifying with
    | none => n
    | some ((i, d), rest) =>
      let n := { n with verifying := rest }
      -- `_onValidationFailed` (segment_fetcher.py:311-318).
      if good then (n.emit (.verified d)).onVerified d i r else n.emit (.error .segmentVerificationFailed)

def run (n : Fetcher) (as : List Action) : Fetcher := as.foldl step n

end Fetcher

/-- `fetch` (segment_fetcher.py:140-195). -/
def fetch (hasKeyChain : Bool) (base : Interest) (r : Express) : Fetcher := ({ hasKeyChain := hasKeyChain } : Fetcher).fetchFirstSegment base r

/-- The states of a fetch. -/
def Reachable (n : Fetcher) : Prop := ∃ k base r as, n = (fetch k base r).run as

end Fetch
end PyNDN
