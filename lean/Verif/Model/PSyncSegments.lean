import Verif.Model.Storage
/-
Model of the content of PSync Data packets (sync/detail/psync_state.py) and of the publisher of its
segments (sync/detail/psync_segment_publisher.py).
-/
namespace PyNDN.PSync

/-! ### PSyncState -/

/-- The loop of `wireEncode` (psync_state.py:80-82). -/
def encodeNames : List Name → Bytes → Bytes
  | [], out => out
  | n :: ns, out => encodeNameTo n (encodeNames ns out)

/-- `wireEncode` (psync_state.py:68-87). -/
def encodeState (names : List Name) : Bytes :=
  let out := encodeNames names []
  writeTypeAndLength 128 out.length out

/-- `len(decodeBuffer)`. -/
def inputLength : Dec Nat := ⟨fun inp off => .ok (inp.length, off)⟩

/-- One name of `wireDecode` (psync_state.py:108-110). -/
def decodeOneName (names : List Name) : Dec (List Name) := do
  let (name, _, _) ← decodeNameFrom
  return names ++ [name]

/-- `wireDecode` (psync_state.py:89-112).  The loop runs up to the end of the buffer, not of the element. -/
def decodeStateFrom : Dec (List Name) := do
  let endOffset ← readNestedTlvsStart 128
  let names ← whileBefore (← inputLength) decodeOneName []
  finishNestedTlvs endOffset
  return names

def decodeState (input : Bytes) : Except Err (List Name) := runDec decodeStateFrom input

/-! ### PSyncSegmentPublisher -/

/-- `int(Common.MAX_NDN_PACKET_SIZE / 2)` (psync_segment_publisher.py:74). -/
def maxPacketSize : Nat := 4400

/-- What the caller of `publish` gives, and its environment: the clock in milliseconds (for the version),
and the signing, which is a function on packets here.  Simplification: the signing does not raise, and
a signed packet has a full name. -/
structure PubParams where
  sign : Data → Data
  /-- `data.getFullName()` of a signed packet. -/
  fullName : Data → Except Err Name

/-- The store of the publisher, what it sent to the face, and the names that a delayed call will remove from the store. -/
structure Publisher where
  store : Storage.Cache := []
  sent : List Data := []
  timers : List Name := []

/-- One packet (psync_segment_publisher.py:88-94). -/
def segment (pre : Name) (finalBlockId : Component) (freshness : Nat) (segmentNo : Nat) (content : Bytes) : Except Err Data := do
  let c ← Component.fromSegment segmentNo
  return { name := pre ++ [c], content := some content, metaInfo := { freshnessPeriod := some freshness, finalBlockId := finalBlockId } }

/-- The loop (psync_segment_publisher.py:83-120) from the offset `b`. -/
def publishLoop (P : PubParams) (interestSegment : Nat) (pre : Name) (finalBlockId : Component) (freshness : Nat) (content : Bytes)
    (b segmentNo : Nat) (p : Publisher) : Except Err Publisher := do
  let e := min (b + maxPacketSize) content.length
  let unsigned ← segment pre finalBlockId freshness segmentNo ((content.drop b).take (e - b))
  let data := P.sign unsigned
  let p := if interestSegment = segmentNo then { p with sent := p.sent ++ [data] } else p
  let p := { p with store := Storage.insert p.store (P.fullName data) data, timers := p.timers ++ [unsigned.name] }
  if e < content.length then publishLoop P interestSegment pre finalBlockId freshness content e (segmentNo + 1) p
  else return p
termination_by content.length - b
decreasing_by
  have : maxPacketSize = 4400 := rfl
  omega

/-- `publish` (psync_segment_publisher.py:51-120); `now` is the clock in milliseconds. -/
def publish (P : PubParams) (p : Publisher) (now : Nat) (interestName dataName : Name) (content : Bytes) (freshness : Nat) : Except Err Publisher := do
  let last ← pyIndex interestName (-1)
  let interestSegment ← if last.isSegment then last.toSegment else pure 0
  let finalBlockId ← Component.fromSegment ((content.length / maxPacketSize : Nat) : Int)
  let version ← Component.fromVersion now
  publishLoop P interestSegment (dataName ++ [version]) finalBlockId freshness content 0 0 p

/-- `replyFromStore` (psync_segment_publisher.py:122-139). -/
def replyFromStore (p : Publisher) (interestName : Name) : Option Publisher :=
  match Storage.find interestName p.store with
  | some d => some { p with sent := p.sent ++ [d] }
  | none => none

/-- The delayed call (psync_segment_publisher.py:110-115) for one of the segments. -/
def removeLater (p : Publisher) (i : Nat) : Publisher :=
  match p.timers[i]? with
  | some name => { p with store := Storage.remove name p.store, timers := p.timers.eraseIdx i }
  | none => p

end PyNDN.PSync
