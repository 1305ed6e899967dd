import Verif.Model.NameUri
/-
Model of ChronoSync: sync/digest_tree.py and sync/chrono_sync2013.py.

Simplifications.  The logging is left out.  A sync state message is the list of its sync states; the protobuf library that
writes and reads it is a parameter; numbers are not bounded by 64 bits.  The face, the KeyChain and the content cache do not
raise; what they are asked to do is the list of events.  The name of the certificate and the face of a callback are left out.
-/
namespace PyNDN.Chrono

abbrev Text := List Char

/-- The UTF-8 encoding of a string (util/common.py `stringToUtf8Array`). -/
def encodeUtf8 (s : Text) : Bytes := s.flatMap fun ch =>
  let c := ch.toNat
  if c < 0x80 then [UInt8.ofNat c]
  else if c < 0x800 then [UInt8.ofNat (0xc0 + c / 64), UInt8.ofNat (0x80 + c % 64)]
  else if c < 0x10000 then
    [UInt8.ofNat (0xe0 + c / 4096), UInt8.ofNat (0x80 + c / 64 % 64), UInt8.ofNat (0x80 + c % 64)]
  else [UInt8.ofNat (0xf0 + c / 262144), UInt8.ofNat (0x80 + c / 4096 % 64),
        UInt8.ofNat (0x80 + c / 64 % 64), UInt8.ofNat (0x80 + c % 64)]

/-- `str.__lt__`: by the code points. -/
def textLess : Text → Text → Bool
  | _, [] => false
  | [], _ :: _ => true
  | a :: s, b :: t => if a.toNat < b.toNat then true else if b.toNat < a.toNat then false else textLess s t

/-! ### The digest tree -/

/-- `DigestTree.Node` (digest_tree.py:36-52). -/
structure Node where
  dataPrefix : Text
  sessionNo : Nat
  sequenceNo : Nat
  digest : Text
  deriving DecidableEq

/-- `_int32ToLittleEndian` (digest_tree.py:141-145). -/
def int32ToLittleEndian (value : Nat) : Bytes :=
  [byteAtShift value 0, byteAtShift value 8, byteAtShift value 16, byteAtShift value 24]

/-- `_recomputeDigest` (digest_tree.py:115-139). -/
def nodeDigest (sha256 : Bytes → Bytes) (dataPrefix : Text) (sessionNo sequenceNo : Nat) : Text :=
  let sequenceDigest := sha256 (int32ToLittleEndian sessionNo ++ int32ToLittleEndian sequenceNo)
  let nameDigest := sha256 (encodeUtf8 dataPrefix)
  toHex (sha256 (nameDigest ++ sequenceDigest))

/-- The constructor (digest_tree.py:46-52). -/
def mkNode (sha256 : Bytes → Bytes) (dataPrefix : Text) (sessionNo sequenceNo : Nat) : Node :=
  ⟨dataPrefix, sessionNo, sequenceNo, nodeDigest sha256 dataPrefix sessionNo sequenceNo⟩

/-- `setSequenceNo` (digest_tree.py:90-97). -/
def Node.setSequenceNo (sha256 : Bytes → Bytes) (n : Node) (sequenceNo : Nat) : Node :=
  { n with sequenceNo := sequenceNo, digest := nodeDigest sha256 n.dataPrefix n.sessionNo sequenceNo }

/-- `lessThan` (digest_tree.py:99-113). -/
def Node.lessThan (n m : Node) : Bool :=
  if textLess n.dataPrefix m.dataPrefix then true
  else if textLess m.dataPrefix n.dataPrefix then false
  else n.sessionNo < m.sessionNo

/-- `DigestTree` (digest_tree.py:31-34). -/
structure Tree where
  nodes : List Node := []
  root : Text := ['0', '0']
  deriving DecidableEq

/-- `find` (digest_tree.py:190-196). -/
def Tree.find (t : Tree) (dataPrefix : Text) (sessionNo : Nat) : Option Nat :=
  t.nodes.findIdx? fun n => n.dataPrefix = dataPrefix ∧ n.sessionNo = sessionNo

/-- `_recomputeRoot` (digest_tree.py:213-236); the digests are hex strings, so `bytearray.fromhex` does not raise. -/
def recomputeRoot (sha256 : Bytes → Bytes) (nodes : List Node) : Text :=
  toHex (sha256 (nodes.flatMap fun n => (fromHex n.digest).toOption.getD []))

/-- Insert before the first node that is not less (digest_tree.py:178-185). -/
def insertSorted (temp : Node) : List Node → List Node
  | [] => [temp]
  | n :: ns => if n.lessThan temp then n :: insertSorted temp ns else temp :: n :: ns

/-- `update` (digest_tree.py:147-188). -/
def Tree.update (sha256 : Bytes → Bytes) (t : Tree) (dataPrefix : Text) (sessionNo sequenceNo : Nat) : Tree × Bool :=
  match t.find dataPrefix sessionNo with
  | some i => match t.nodes[i]? with
    | some n =>
      if n.sequenceNo < sequenceNo then
        let nodes := t.nodes.set i (n.setSequenceNo sha256 sequenceNo)
        (⟨nodes, recomputeRoot sha256 nodes⟩, true)
      else (t, false)
    | none => (t, false)
  | none =>
    let nodes := insertSorted (mkNode sha256 dataPrefix sessionNo sequenceNo) t.nodes
    (⟨nodes, recomputeRoot sha256 nodes⟩, true)

/-! ### ChronoSync2013 -/

/-- `sync_state_pb2.SyncState` (sync-state.proto); type 0 is UPDATE. -/
structure SyncState where
  name : Text
  type : Nat := 0
  seq : Nat
  session : Nat
  info : Bytes := []
  deriving DecidableEq

abbrev Content := List SyncState

/-- What the instance asks the face, the content cache and the application to do. -/
inductive Event where
  /-- A sync Interest is expressed. -/
  | express (name : Name) (lifetime : Nat)
  /-- The Interest /local/timeout is expressed, to come back to the digest. -/
  | wait (digest : Text)
  | put (name : Name) (content : Bytes) (freshness : Option Nat)
  /-- A Data packet is added to the content cache. -/
  | cache (name : Name) (content : Bytes)
  /-- The content cache keeps the Interest. -/
  | keep (name : Name)
  | received (states : List SyncState) (isRecovery : Bool)
  | initialized
  deriving DecidableEq

/-- The arguments of the constructor (chrono_sync2013.py:100-112), and the environment. -/
structure Params where
  sha256 : Bytes → Bytes
  /-- `SerializeToString` and `ParseFromString`. -/
  serialize : Content → Bytes
  parse : Bytes → Except Err Content
  /-- `applicationDataPrefix.toUri()`. -/
  prefixUri : Text
  broadcast : Name
  session : Nat
  lifetime : Nat

/-- The instance (chrono_sync2013.py:103-121). -/
structure State where
  tree : Tree := {}
  /-- `_digestLog`. -/
  log : List (Text × Content) := [(['0', '0'], [])]
  sequenceNo : Int := -1
  enabled : Bool := true
  /-- The sync Interests that are expressed and neither answered nor timed out; whether it is the initial one. -/
  outstanding : List (Name × Bool) := []
  /-- The digests for which an Interest /local/timeout is expressed. -/
  waits : List Text := []
  events : List Event := []
  /-- Not in the code: the contents that were given to `_update`. -/
  applied : List Content := []

def State.emit (s : State) (e : Event) : State := { s with events := s.events ++ [e] }

/-- The name with a component of a string. -/
def appendText (n : Name) (t : Text) : Name := n ++ [⟨.generic, encodeUtf8 t⟩]

/-- Express a sync Interest (chrono_sync2013.py:295-298, 494-498, 532-536). -/
def State.express (s : State) (name : Name) (lifetime : Nat) (initial : Bool := false) : State :=
  { s.emit (.express name lifetime) with outstanding := s.outstanding ++ [(name, initial)] }

/-- Ask with the current root. -/
def State.ask (P : Params) (s : State) : State := s.express (appendText P.broadcast s.tree.root) P.lifetime

/-- The constructor (chrono_sync2013.py:100-134). -/
def start (P : Params) : State := State.express {} (appendText P.broadcast ['0', '0']) 1000 true

/-- `getProducerSequenceNo` (chrono_sync2013.py:234-249). -/
def getProducerSequenceNo (s : State) (dataPrefix : Text) (sessionNo : Nat) : Int :=
  match s.tree.find dataPrefix sessionNo with
  | none => -1
  | some i => match s.tree.nodes[i]? with
    | none => -1
    | some n => n.sequenceNo

/-- `getProducerPrefixes` (chrono_sync2013.py:216-232). -/
def getProducerPrefixes (s : State) : List (Text × Nat) := s.tree.nodes.map fun n => (n.dataPrefix, n.sessionNo)

/-- `_logFind` (chrono_sync2013.py:387-395). -/
def logFind (s : State) (digest : Text) : Option Nat := s.log.findIdx? fun e => digest = e.1

/-- The loop of `_update` (chrono_sync2013.py:369-378). -/
def updateLoop (P : Params) (s : State) : Content → State
  | [] => s
  | x :: xs =>
    if x.type = 0 then
      let r := s.tree.update P.sha256 x.name x.session x.seq
      if r.2 then
        if P.prefixUri = x.name then updateLoop P { s with tree := r.1, sequenceNo := x.seq } xs
        else updateLoop P { s with tree := r.1 } xs
      else updateLoop P { s with tree := r.1 } xs
    else updateLoop P s xs

/-- `_update` (chrono_sync2013.py:358-385). -/
def update (P : Params) (s : State) (content : Content) : State × Bool :=
  let s := updateLoop P { s with applied := s.applied ++ [content] } content
  match logFind s s.tree.root with
  | none => ({ s with log := s.log ++ [(s.tree.root, content)] }, true)
  | some _ => (s, false)

/-- `_broadcastSyncState` (chrono_sync2013.py:342-356). -/
def broadcastSyncState (P : Params) (s : State) (digest : Text) (content : Content) : State :=
  s.emit (.cache (appendText P.broadcast digest) (P.serialize content))

/-- The sync state of the own user. -/
def ownState (P : Params) (seq : Nat) (info : Bytes := []) : SyncState :=
  { name := P.prefixUri, seq := seq, session := P.session, info := info }

/-- `publishNextSequenceNo` (chrono_sync2013.py:251-298); no application information is the empty one. -/
def publishNextSequenceNo (P : Params) (s : State) (info : Bytes) : Except Err Unit × State :=
  let s := { s with sequenceNo := s.sequenceNo + 1 }
  let content := [ownState P s.sequenceNo.toNat info]
  let s := broadcastSyncState P s s.tree.root content
  match update P s content with
  | (s, false) => (.error .runtime, s)
  | (s, true) => (.ok (), s.ask P)

/-- `_processRecoveryInterest` (chrono_sync2013.py:540-572). -/
def processRecoveryInterest (P : Params) (s : State) (name : Name) (syncDigest : Text) : Except Err Unit × State :=
  match logFind s syncDigest with
  | none => (.ok (), s)
  | some _ =>
    let content : Content := s.tree.nodes.map fun n => { name := n.dataPrefix, seq := n.sequenceNo, session := n.sessionNo }
    if content.length ≠ 0 then
      match pyIndex name (-1) with
      | .error e => (.error e, s)
      | .ok c => (.ok (), s.emit (.put name (P.serialize content) (if c.toEscapedString = ['0', '0'] then some 1000 else none)))
    else (.ok (), s)

/-- One sync state in the loop of `_processSyncInterest` (chrono_sync2013.py:588-607): the lists of names, sequence numbers
and session numbers as one list. -/
def collectOne (t : Tree) (acc : List (Text × Nat × Nat)) (x : SyncState) : List (Text × Nat × Nat) :=
  if x.type ≠ 0 then acc
  else match t.find x.name x.session with
    | none => acc
    | some _ => match acc.findIdx? fun y => y.1 = x.name with
      | none => acc ++ [(x.name, x.seq, x.session)]
      | some n => acc.set n (x.name, x.seq, x.session)

/-- `_processSyncInterest` (chrono_sync2013.py:574-640). -/
def processSyncInterest (P : Params) (s : State) (index : Nat) (syncDigest : Text) : State :=
  let found := ((s.log.drop (index + 1)).flatMap (·.2)).foldl (collectOne s.tree) []
  let content : Content := found.map fun x => { name := x.1, seq := x.2.1, session := x.2.2 }
  if content.length ≠ 0 then s.emit (.put (appendText P.broadcast syncDigest) (P.serialize content) none) else s

/-- `_onInterest` from the digest on (chrono_sync2013.py:418-440). -/
def answer (P : Params) (s : State) (name : Name) (syncDigest : Text) : Except Err Unit × State :=
  if name.length = P.broadcast.length + 2 ∨ syncDigest = ['0', '0'] then processRecoveryInterest P s name syncDigest
  else
    let s := s.emit (.keep name)
    if syncDigest ≠ s.tree.root then
      match logFind s syncDigest with
      | none => (.ok (), { s.emit (.wait syncDigest) with waits := s.waits ++ [syncDigest] })
      | some index => (.ok (), processSyncInterest P s index syncDigest)
    else (.ok (), s)

/-- `_onInterest` (chrono_sync2013.py:397-440). -/
def onInterest (P : Params) (s : State) (name : Name) : Except Err Unit × State :=
  if !s.enabled then (.ok (), s)
  else match pyIndex name P.broadcast.length with
    | .error e => (.error e, s)
    | .ok c =>
      if name.length = P.broadcast.length + 2 then
        match pyIndex name (P.broadcast.length + 1 : Nat) with
        | .error e => (.error e, s)
        | .ok c => answer P s name c.toEscapedString
      else answer P s name c.toEscapedString

/-- The loop of `_initialOndata` (chrono_sync2013.py:710-728). -/
def initialLoop (P : Params) (s : State) : Content → State
  | [] => s
  | x :: xs =>
    if x.name = P.prefixUri ∧ x.session = P.session then
      let r := update P s [ownState P (x.seq + 1)]
      if r.2 then initialLoop P (r.1.emit .initialized) xs else initialLoop P r.1 xs
    else initialLoop P s xs

/-- `_initialOndata` (chrono_sync2013.py:702-763). -/
def initialOndata (P : Params) (s : State) (content : Content) : State :=
  let s := (update P s content).1
  let digest := s.tree.root
  let s := initialLoop P s content
  let s := broadcastSyncState P s digest [ownState P s.sequenceNo.toNat]
  match s.tree.find P.prefixUri P.session with
  | some _ => s
  | none =>
    let s := { s with sequenceNo := s.sequenceNo + 1 }
    let r := update P s [ownState P s.sequenceNo.toNat]
    if r.2 then r.1.emit .initialized else r.1

/-- The sync states that are reported (chrono_sync2013.py:473-487). -/
def reported (content : Content) : List SyncState := content.filter fun x => x.type = 0

/-- `_onData` (chrono_sync2013.py:442-500). -/
def onData (P : Params) (s : State) (interestName : Name) (bytes : Bytes) : Except Err Unit × State :=
  if !s.enabled then (.ok (), s)
  else match P.parse bytes with
    | .error e => (.error e, s)
    | .ok content =>
      if s.tree.root = ['0', '0'] then
        (.ok (), ((initialOndata P s content).emit (.received (reported content) true)).ask P)
      else
        (.ok (), ((update P s content).1.emit
          (.received (reported content) (interestName.length = P.broadcast.length + 2))).ask P)

/-- `_initialTimeOut` (chrono_sync2013.py:502-538). -/
def initialTimeOut (P : Params) (s : State) : Except Err Unit × State :=
  if !s.enabled then (.ok (), s)
  else
    let s := { s with sequenceNo := s.sequenceNo + 1 }
    if s.sequenceNo ≠ 0 then (.error .runtime, s)
    else (.ok (), ((update P s [ownState P s.sequenceNo.toNat]).1.emit .initialized).ask P)

/-- `_sendRecovery` (chrono_sync2013.py:642-653). -/
def sendRecovery (P : Params) (s : State) (syncDigest : Text) : State :=
  s.express (appendText (appendText P.broadcast "recovery".toList) syncDigest) P.lifetime

/-- `_judgeRecovery` (chrono_sync2013.py:663-677). -/
def judgeRecovery (P : Params) (s : State) (syncDigest : Text) : State :=
  if !s.enabled then s
  else match logFind s syncDigest with
    | some index => if syncDigest ≠ s.tree.root then processSyncInterest P s index syncDigest else s
    | none => sendRecovery P s syncDigest

/-- `_syncTimeout` (chrono_sync2013.py:679-700). -/
def syncTimeout (P : Params) (s : State) (interestName : Name) : Except Err Unit × State :=
  if !s.enabled then (.ok (), s)
  else match pyIndex interestName P.broadcast.length with
    | .error e => (.error e, s)
    | .ok c => (.ok (), if c.toEscapedString = s.tree.root then s.express interestName P.lifetime else s)

/-- What can happen to an instance. -/
inductive Op where
  | publish (info : Bytes)
  /-- An Interest under the broadcast prefix arrives, for which the content cache has nothing. -/
  | interest (name : Name)
  /-- The Interest number `i` of the outstanding ones is answered, or times out. -/
  | data (i : Nat) (content : Bytes)
  | timeout (i : Nat)
  /-- The Interest /local/timeout number `i` times out. -/
  | judge (i : Nat)
  /-- `shutdown` (chrono_sync2013.py:310-322). -/
  | shutdown

/-- One thing happens. -/
def perform (P : Params) (s : State) : Op → Except Err Unit × State
  | .publish info => publishNextSequenceNo P s info
  | .interest name => onInterest P s name
  | .data i content => match s.outstanding[i]? with
    | none => (.ok (), s)
    | some (name, _) => onData P { s with outstanding := s.outstanding.eraseIdx i } name content
  | .timeout i => match s.outstanding[i]? with
    | none => (.ok (), s)
    | some (_, true) => initialTimeOut P { s with outstanding := s.outstanding.eraseIdx i }
    | some (name, false) => syncTimeout P { s with outstanding := s.outstanding.eraseIdx i } name
  | .judge i => match s.waits[i]? with
    | none => (.ok (), s)
    | some d => (.ok (), judgeRecovery P { s with waits := s.waits.eraseIdx i } d)
  | .shutdown => (.ok (), { s with enabled := false })

def run (P : Params) (ops : List Op) : State := ops.foldl (fun s op => (perform P s op).2) (start P)

end PyNDN.Chrono
