import Verif.Model.CertStore
import Verif.Model.NameUri
/-
Model of the v2 validator: security/v2/validator.py, validation_state.py, data_validation_state.py,
interest_validation_state.py, validation_policy*.py, validator_config/*.py, certificate_fetcher*.py,
certificate_request.py and security/verification_helpers.py.

The cryptographic check itself is a parameter (`Cfg.verify`).  The network is a list of events: the
Face answers an expressed Interest at most once, with a matching Data packet, a timeout or a Nack
(which the Face model proves, Model/Node.lean), or `expressInterest` raises.

The application's callbacks can call back into the validator.  A call of `successCallback` or
`failureCallback` is an event of the trace; what the library does after the callback returns is a
`Frame`, which may be resumed at any later point and in any order (an over-approximation of nested
calls).
-/
namespace PyNDN.Validator

/-- What `validate` takes: a Data packet, or an Interest with the signed portion of its encoding. -/
inductive Packet where
  | data (d : SData)
  | interest (i : Interest) (signed : Except Err Bytes)
  deriving DecidableEq

def Packet.name : Packet → Name
  | .data d => d.data.name
  | .interest i _ => i.name

/-- The codes of `ValidationError` (validation_error.py) used in the modelled code. -/
inductive VErr where
  | invalidSignature | invalidKeyLocator | policyError | expiredCertificate | loopDetected
  | exceededDepth | cannotRetrieve | malformed
  deriving DecidableEq, Repr

/-- The end of a piece of code that may call `state.fail` or raise an exception instead of going on. -/
inductive Res (α : Type) where
  | ok (a : α)
  | fail (e : VErr)
  | raise (e : Err)
  deriving DecidableEq

def Res.bind (r : Res α) (f : α → Res β) : Res β :=
  match r with
  | .ok a => f a
  | .fail e => .fail e
  | .raise e => .raise e

instance : Monad Res where
  pure := .ok
  bind := Res.bind

/-- An exception that is not caught. -/
def Res.lift (r : Except Err α) : Res α :=
  match r with
  | .ok a => .ok a
  | .error e => .raise e

/-! ### Policies -/

/-- `decodeSignatureInfoAndValue` (tlv_0_2_wire_format.py:502-535). -/
def decodeSignatureInfoAndValue (info value : Bytes) : Except Err Signature := do
  let si ← runDec decodeSignatureInfo info
  let sv ← runDec (readBlobTlv 23) value
  return { info := si, signature := some sv }

/-- The signature in the last two components of a signed Interest name. -/
def interestSignature (n : Name) : Except Err Signature := do
  let info ← pyIndex n (-2)
  let value ← pyIndex n (-1)
  decodeSignatureInfoAndValue info.value value.value

/-- `_getKeyLocatorNameFromSignature` (validation_policy.py:172-192). -/
def keyLocatorNameOf (si : SigInfo) : Res Name :=
  match si.keyLocator? with
  | none => .fail .invalidKeyLocator
  | some kl => if kl.type ≠ some 1 then .fail .invalidKeyLocator else .ok kl.keyName

/-- `ValidationPolicy.getKeyLocatorName` (validation_policy.py:132-170). -/
def getKeyLocatorName : Packet → Res Name
  | .data d => keyLocatorNameOf d.data.signature.info
  | .interest i _ =>
    if i.name.length < 2 then .fail .invalidKeyLocator
    else match interestSignature i.name with
      | .error _ => .fail .invalidKeyLocator
      | .ok sig => keyLocatorNameOf sig.info

/-- `ConfigNameRelation.Relation` (config_name_relation.py:28-32). -/
inductive Relation where
  | equal | isPrefixOf | isStrictPrefixOf
  deriving DecidableEq, Repr

/-- `ConfigNameRelation.checkNameRelation` (config_name_relation.py:53-72). -/
def checkNameRelation (r : Relation) (name1 name2 : Name) : Bool :=
  match r with
  | .equal => name1.equals name2
  | .isPrefixOf => name1.matches name2
  | .isStrictPrefixOf => name1.matches name2 && decide (name1.length < name2.length)

/-- `PibKey.isValidKeyName` (security/pib/pib_key.py:122-133). -/
def isValidKeyName (n : Name) : Except Err Bool :=
  if n.length > 2 then do return (← pyIndex n (-2)).equals keyComponent else .ok false

/-- `PibKey.extractIdentityFromKeyName` (security/pib/pib_key.py:135-149). -/
def extractIdentityFromKeyName (n : Name) : Except Err Name := do
  if !(← isValidKeyName n) then .error .value else getPrefix n (-2)

/-- `ConfigFilter` (config_filter.py:120-183).  A regex filter is any predicate on names. -/
inductive Filter where
  | relation (name : Name) (r : Relation)
  | regex (f : Name → Bool)

/-- `matchName` (config_filter.py:142-152, 174-183). -/
def Filter.matchName : Filter → Name → Bool
  | .relation n r, p => checkNameRelation r n p
  | .regex f, p => f p

/-- `ConfigFilter.match` (config_filter.py:34-54): the signature components of an Interest name are
left out. -/
def Filter.matchPacket (f : Filter) (isForInterest : Bool) (packetName : Name) : Except Err Bool :=
  if isForInterest then
    if packetName.length < 2 then .ok false
    else do return f.matchName (← getPrefix packetName (-2))
  else .ok (f.matchName packetName)

/-- `ConfigChecker` (config_checker.py:219-330).  A regex is any predicate on names, and a regex with
an expansion is any partial function on names (`none` if the regex does not match).  This is faithful
for regexes in which no group is repeated (C55): otherwise an expansion can depend on the names matched
before. -/
inductive Checker where
  | relation (name : Name) (r : Relation)
  | regex (f : Name → Bool)
  | hyper (packet key : Name → Option Name) (r : Relation)

/-- `checkNames` (config_checker.py:230-249, 260-274, 294-330). -/
def Checker.checkNames : Checker → Name → Name → Res Unit
  | .relation n r, _, kl => do
    let identity ← Res.lift (extractIdentityFromKeyName kl)
    if checkNameRelation r n identity then .ok () else .fail .policyError
  | .regex f, _, kl => if f kl then .ok () else .fail .policyError
  | .hyper p k r, packetName, kl =>
    match p packetName with
    | none => .fail .policyError
    | some pe =>
      match k kl with
      | none => .fail .policyError
      | some ke => if checkNameRelation r ke pe then .ok () else .fail .policyError

/-- `re.compile(x).search(text) != None` for a literal `x`. -/
def containsText (x : List Char) : List Char → Bool
  | [] => x.isEmpty
  | c :: cs => x.isPrefixOf (c :: cs) || containsText x cs

/-- `<KEY>` in a regex (ndn_regex_component_matcher.py:57-66): "KEY" is searched in the URI form. -/
def isKeyLike (c : Component) : Bool := containsText ['K', 'E', 'Y'] c.toEscapedString

/-- `^(<>*)$` with `\1` (config_checker.py:125): the whole name. -/
def hierarchicalPacket (n : Name) : Option Name := if n.length ≤ 32767 then some n else none

/-- `^(<>*)<KEY><>$` with `\1` (config_checker.py:126): what precedes the last two components. -/
def hierarchicalKey (kl : Name) : Option Name :=
  if 2 ≤ kl.length ∧ kl.length ≤ 32769 ∧ (kl[kl.length - 2]?).any isKeyLike = true then
    some (kl.take (kl.length - 2))
  else none

/-- `_createHierarchicalChecker` (config_checker.py:117-127). -/
def hierarchicalChecker : Checker := .hyper hierarchicalPacket hierarchicalKey .isPrefixOf

/-- `ConfigChecker.check` (config_checker.py:36-62).  A too short Interest name gives False without
calling `state.fail`; this is represented by `none`. -/
def Checker.check (c : Checker) (isForInterest : Bool) (packetName kl : Name) : Res (Option Unit) :=
  if isForInterest then
    if packetName.length < 2 then .ok none
    else do
      let p ← Res.lift (getPrefix packetName (-2))
      c.checkNames p kl
      return some ()
  else do
    c.checkNames packetName kl
    return some ()

/-- `ConfigRule` (config_rule.py:39-43). -/
structure Rule where
  isForInterest : Bool
  filters : List Filter
  checkers : List Checker

/-- The filter loop (config_rule.py:105-111). -/
def anyFilter (isForInterest : Bool) (packetName : Name) : List Filter → Except Err Bool
  | [] => .ok false
  | f :: fs => do
    if ← f.matchPacket isForInterest packetName then return true
    else anyFilter isForInterest packetName fs

/-- `ConfigRule.match` (config_rule.py:79-111). -/
def Rule.matchPacket (r : Rule) (isForInterest : Bool) (packetName : Name) : Except Err Bool :=
  if isForInterest ≠ r.isForInterest then .error .value
  else if r.filters.length = 0 then .ok true
  else anyFilter isForInterest packetName r.filters

/-- The checker loop (config_rule.py:140-148).  The result is whether all of them passed; False
without `state.fail` is possible. -/
def allCheckers (isForInterest : Bool) (packetName kl : Name) : List Checker → Bool → Res Bool
  | [], hasPending => .ok hasPending
  | c :: cs, _ => do
    match ← c.check isForInterest packetName kl with
    | none => return false
    | some () => allCheckers isForInterest packetName kl cs true

/-- `ConfigRule.check` (config_rule.py:113-148). -/
def Rule.check (r : Rule) (isForInterest : Bool) (packetName kl : Name) : Res Bool :=
  if isForInterest ≠ r.isForInterest then .raise .value
  else allCheckers isForInterest packetName kl r.checkers false

/-- What a terminal policy decides.  `silent` is returning without calling anything. -/
inductive Decision where
  | bypass
  | request (keyLocatorName : Name)
  | silent
  deriving DecidableEq

/-- The rule loop of `ValidationPolicyConfig.checkPolicy` (validation_policy_config.py:141-170). -/
def applyRules (isForInterest : Bool) (packetName kl : Name) : List Rule → Res Decision
  | [] => .fail .policyError
  | r :: rs => do
    if ← Res.lift (r.matchPacket isForInterest packetName) then
      if ← r.check isForInterest packetName kl then return .request kl
      else return .silent
    else applyRules isForInterest packetName kl rs

/-- The terminal policies: `ValidationPolicyAcceptAll`, `ValidationPolicySimpleHierarchy` and a loaded
`ValidationPolicyConfig` (validation_policy_config.py:44-51). -/
inductive Policy where
  | acceptAll
  | simpleHierarchy
  | config (shouldBypass : Bool) (dataRules interestRules : List Rule)

/-- `checkPolicy` (validation_policy_accept_all.py:33-41,
validation_policy_simple_hierarchy.py:35-53, validation_policy_config.py:117-170). -/
def Policy.check : Policy → Packet → Res Decision
  | .acceptAll, _ => .ok .bypass
  | .simpleHierarchy, p => do
    let kl ← getKeyLocatorName p
    let pre ← Res.lift (getPrefix kl (-2))
    if pre.matches p.name then return .request kl else .fail .invalidKeyLocator
  | .config bypass dataRules interestRules, p =>
    if bypass then .ok .bypass
    else do
      let kl ← getKeyLocatorName p
      match p with
      | .data d => applyRules false d.data.name kl dataRules
      | .interest i _ => applyRules true i.name kl interestRules

/-- The options of `ValidationPolicyCommandInterest` (validation_policy_command_interest.py:105-126). -/
structure CommandOptions where
  gracePeriod : Int := 120000
  maxRecords : Int := 1000
  recordLifetime : Int := 3600000
  deriving DecidableEq

/-- `LastTimestampRecord` (validation_policy_command_interest.py:162-172). -/
structure Record where
  keyName : Name
  timestamp : Nat
  lastRefreshed : Int
  deriving DecidableEq

/-- `_cleanUp` (validation_policy_command_interest.py:174-183). -/
def cleanUp (o : CommandOptions) (now : Int) : List Record → List Record
  | [] => []
  | r :: rs =>
    if r.lastRefreshed ≤ now - o.recordLifetime ∨
        (0 ≤ o.maxRecords ∧ ((r :: rs).length : Int) > o.maxRecords) then cleanUp o now rs
    else r :: rs

/-- `_findByKeyName` (validation_policy_command_interest.py:272-284). -/
def findRecord (keyName : Name) (rs : List Record) : Option Record :=
  rs.find? fun r => r.keyName.equals keyName

/-- `pop(index)` of the first record for the key name. -/
def popRecord (keyName : Name) : List Record → List Record
  | [] => []
  | r :: rs => if r.keyName.equals keyName then rs else r :: popRecord keyName rs

/-- `_insertNewRecord` (validation_policy_command_interest.py:254-270). -/
def insertRecord (now : Int) (keyName : Name) (timestamp : Nat) (rs : List Record) : List Record :=
  popRecord keyName rs ++ [⟨keyName, timestamp, now⟩]

/-- `_parseCommandInterest` (validation_policy_command_interest.py:185-218). -/
def parseCommandInterest (p : Packet) : Res (Name × Nat) :=
  if p.name.length < 4 then .fail .policyError
  else do
    let c ← Res.lift (pyIndex p.name (-4))
    let kl ← getKeyLocatorName p
    return (kl, c.toNumber)

/-- The timestamp tests of `_checkTimestamp` after `_cleanUp`
(validation_policy_command_interest.py:232-245). -/
def checkTimestamp (o : CommandOptions) (now : Int) (rs : List Record) (keyName : Name)
    (timestamp : Nat) : Res Unit :=
  if (timestamp : Int) < now - max o.gracePeriod 0 ∨ (timestamp : Int) > now + max o.gracePeriod 0 then
    .fail .policyError
  else match findRecord keyName rs with
    | some r => if timestamp ≤ r.timestamp then .fail .policyError else .ok ()
    | none => .ok ()

/-! ### Verifying signatures -/

/-- The configuration of a `Validator` (validator.py:64-80).  `verify signed signature key` is
`VerificationHelpers.verifySignature` (verification_helpers.py:38-107), which raises when the key
cannot be parsed.  `canBePrefix` is the default of the `Interest` constructor (interest.py:67). -/
structure Cfg where
  verify : Bytes → Option Bytes → Bytes → Except Err Bool
  policy : Policy
  command : Option CommandOptions := none
  offline : Bool := false
  maxDepth : Nat := 25
  canBePrefix : Bool := true

/-- `Interest(keyLocatorName)`. -/
def Cfg.request (V : Cfg) (name : Name) : Interest :=
  { name := name, maxSuffix := if V.canBePrefix then none else some 1 }

/-- `verifyDataSignature(data, certificate)` (verification_helpers.py:109-156). -/
def verifyData (V : Cfg) (d cert : SData) : Except Err Bool :=
  if blobSize cert.data.content = 0 then .ok false
  else do
    let signed ← d.signed
    V.verify signed d.data.signature.signature (cert.data.content.getD [])

/-- `verifyInterestSignature(interest, certificate)` (verification_helpers.py:159-213, 245-264). -/
def verifyInterest (V : Cfg) (i : Interest) (signed : Except Err Bytes) (cert : SData) :
    Except Err Bool :=
  if blobSize cert.data.content = 0 then .ok false
  else if i.name.length < 2 then .ok false
  else match interestSignature i.name with
    | .error _ => .ok false
    | .ok sig => do
      let signed ← signed
      V.verify signed sig.signature (cert.data.content.getD [])

/-- The verification in `_verifyOriginalPacket` (data_validation_state.py:91,
interest_validation_state.py:99-100). -/
def verifyPacket (V : Cfg) (p : Packet) (cert : SData) : Except Err Bool :=
  match p with
  | .data d => verifyData V d cert
  | .interest i signed => verifyInterest V i signed cert

/-! ### One validation -/

/-- `ValidationState` (validation_state.py:46-52) and the record that the command policy's success
callback inserts.  The first certificate of the chain is signed by the trusted certificate. -/
structure Session where
  packet : Packet
  chain : List SData := []
  seen : List Name := []
  record : Option (Name × Nat) := none
  deriving DecidableEq

/-- How a piece of `validate`, or of the handling of a fetched certificate, ends: with the success
callback, with the failure callback, by expressing an Interest, with an exception, or silently.
`cache` are the certificates that are then cached as verified (validator.py:209-210). -/
inductive Out where
  | success (s : Session) (cache : List SData)
  | fail (s : Session) (e : VErr) (cache : List SData)
  | fetch (s : Session) (name : Name)
  | raise (s : Session) (e : Err)
  | silent (s : Session)
  deriving DecidableEq

/-- The result of `_verifyCertificateChain` (validation_state.py:160-196): the last certificate, or
the number of the certificate whose signature is bad. -/
inductive ChainRes where
  | ok (last : SData)
  | bad (i : Nat)
  | raise (e : Err)

/-- The loop of `_verifyCertificateChain` (validation_state.py:176-196). -/
def verifyChain (V : Cfg) (validated : SData) : List SData → Nat → ChainRes
  | [], _ => .ok validated
  | c :: cs, i =>
    match verifyData V c validated with
    | .error e => .raise e
    | .ok false => .bad i
    | .ok true => verifyChain V c cs (i + 1)

/-- The part of `_requestCertificate` for a trusted certificate (validator.py:201-212). -/
def verifyAll (V : Cfg) (s : Session) (trusted : SData) : Out :=
  match verifyChain V trusted s.chain 0 with
  | .raise e => .raise s e
  | .bad i => .fail { s with chain := s.chain.take i } .invalidSignature (s.chain.take i)
  | .ok last =>
    match verifyPacket V s.packet last with
    | .error e => .raise s e
    | .ok true => .success s s.chain
    | .ok false => .fail s .invalidSignature s.chain

/-- The tests of `_validateCertificate` before `addCertificate` (validator.py:151-177). -/
def certificatePolicy (V : Cfg) (now : Int) (c : SData) : Res Decision := do
  if !(← Res.lift (isValid c now)) then .fail .expiredCertificate
  else
    match ← V.policy.check (.data c) with
    | .bypass => .fail .policyError
    | .request name => return .request name
    | .silent => return .silent

/-- `_requestCertificate` with `CertificateFetcher.fetch` up to the network and `_validateCertificate`
for a certificate of the unverified cache (validator.py:151-215, certificate_fetcher.py:42-80). -/
def requestCertificate (V : Cfg) (now : Int) (st : Stores) (s : Session) (name : Name) : Stores × Out :=
  if V.maxDepth ≤ s.chain.length then (st, .fail s .exceededDepth [])
  else if s.seen.any (fun n => n.equals name) then (st, .fail s .loopDetected [])
  else
    let s := { s with seen := name :: s.seen }
    match st.findTrusted now (V.request name) with
    | (st, .error e) => (st, .raise s e)
    | (st, .ok (some c)) => (st, verifyAll V s c)
    | (st, .ok none) =>
      match st.unverified.find now (V.request name) with
      | (u, .error e) => ({ st with unverified := u }, .raise s e)
      | (u, .ok none) => ({ st with unverified := u }, .fetch s name)
      | (u, .ok (some c)) =>
        let st := { st with unverified := u }
        match certificatePolicy V now c with
        | .raise e => (st, .raise s e)
        | .fail e => (st, .fail s e [])
        | .ok (.request name) => requestCertificate V now st { s with chain := c :: s.chain } name
        | .ok _ => (st, .silent s)
termination_by V.maxDepth - s.chain.length
decreasing_by simp; omega

/-- `_validateCertificate` (validator.py:151-177). -/
def validateCertificate (V : Cfg) (now : Int) (st : Stores) (s : Session) (c : SData) : Stores × Out :=
  match certificatePolicy V now c with
  | .raise e => (st, .raise s e)
  | .fail e => (st, .fail s e [])
  | .ok (.request name) => requestCertificate V now st { s with chain := c :: s.chain } name
  | .ok _ => (st, .silent s)

/-- `continueFetch` (certificate_fetcher.py:77-79). -/
def continueFetch (V : Cfg) (now : Int) (st : Stores) (s : Session) (c : SData) : Stores × Out :=
  match st.unverified.insert now c with
  | .error e => (st, .raise s e)
  | .ok u => validateCertificate V now { st with unverified := u } s c

/-- `onData` of the network fetcher, apart from the handling of exceptions
(certificate_fetcher_from_network.py:49-67).  `CertificateV2(data)` checks the format. -/
def onCertificate (V : Cfg) (now : Int) (st : Stores) (s : Session) (d : SData) : Stores × Out :=
  match checkFormat d with
  | .error _ => (st, .fail s .malformed [])
  | .ok () => continueFetch V now st s d

/-- `fetch` after a timeout or a Nack (certificate_fetcher_from_network.py:69-104,
certificate_fetcher.py:67-80). -/
def refetch (V : Cfg) (now : Int) (st : Stores) (s : Session) (name : Name) (retriesLeft : Int) :
    Stores × Out :=
  if retriesLeft ≥ 0 then
    match st.unverified.find now (V.request name) with
    | (u, .error e) => ({ st with unverified := u }, .raise s e)
    | (u, .ok none) => ({ st with unverified := u }, .fetch s name)
    | (u, .ok (some c)) => continueFetch V now { st with unverified := u } s c
  else (st, .fail s .cannotRetrieve [])

/-! ### The validator over time -/

/-- A fetch in progress: `CertificateRequest` (certificate_request.py:31-46) and the state. -/
structure Pending where
  id : Nat
  session : Session
  name : Name
  retriesLeft : Int
  deriving DecidableEq

/-- What the library does after a callback returns: for a command Interest insert the record
(`record`), set the outcome, and cache certificates as verified.  `async` is whether this runs inside
the network fetcher's exception handler. -/
structure Frame where
  id : Nat
  outcome : Bool
  record : Option (Name × Nat)
  cache : List SData
  async : Bool
  deriving DecidableEq

/-- What can be observed: the calls of `validate` and their ends, the Interests sent, the certificates
that the application declares trusted, and the readings of the clock. -/
inductive Ev where
  | called (id : Nat) (p : Packet)
  | success (id : Nat)
  | failure (id : Nat) (e : VErr)
  | raised (id : Nat) (e : Err)
  | silent (id : Nat)
  | express (id : Nat) (name : Name)
  | trusted (c : SData)
  | clock (t : Int)
  deriving DecidableEq

structure Sys where
  now : Int
  st : Stores := {}
  records : List Record := []
  next : Nat := 0
  pending : List Pending := []
  frames : List Frame := []
  outcomes : List (Nat × Bool) := []
  trace : List Ev := []
  deriving DecidableEq

def Sys.emit (y : Sys) (e : Ev) : Sys := { y with trace := y.trace ++ [e] }

/-- Call the failure callback (data_validation_state.py:59-71, interest_validation_state.py:60-72). -/
def Sys.fail (y : Sys) (id : Nat) (async : Bool) (e : VErr) (cache : List SData) : Sys :=
  { y.emit (.failure id e) with frames := y.frames ++ [⟨id, false, none, cache, async⟩] }

/-- What happens at the end of `validate` or of a network callback.  `ok` is whether
`expressInterest` returns normally (certificate_fetcher_from_network.py:106-111,
certificate_fetcher_offline.py:34-43); an exception goes to the caller of `validate`, or to
`state.fail` in a network callback (certificate_fetcher_from_network.py:62-67, 75-80). -/
def Sys.conclude (V : Cfg) (y : Sys) (id : Nat) (async ok : Bool) (retriesLeft : Int) : Out → Sys
  | .success s cache =>
    { y.emit (.success id) with frames := y.frames ++ [⟨id, true, s.record, cache, async⟩] }
  | .fail _ e cache => y.fail id async e cache
  | .raise _ e => if async then y.fail id true .cannotRetrieve [] else y.emit (.raised id e)
  | .silent _ => y.emit (.silent id)
  | .fetch s name =>
    if V.offline || !ok then y.fail id async .cannotRetrieve []
    else { y.emit (.express id name) with
           pending := y.pending ++ [⟨id, s, name, retriesLeft⟩] }

/-- `Validator.validate` up to the terminal policy's decision: the command policy's
`checkPolicy` (validation_policy_command_interest.py:128-151) and the terminal policy.  Returns the
cleaned up records and the record to insert on success. -/
def checkOriginal (V : Cfg) (now : Int) (records : List Record) (p : Packet) :
    List Record × Res (Option (Name × Nat) × Decision) :=
  match V.command, p with
  | some o, .interest _ _ =>
    match parseCommandInterest p with
    | .fail e => (records, .fail e)
    | .raise e => (records, .raise e)
    | .ok (kl, ts) =>
      let records := cleanUp o now records
      (records, do
        checkTimestamp o now records kl ts
        let d ← V.policy.check p
        return (some (kl, ts), d))
  | _, _ => (records, do return (none, ← V.policy.check p))

/-- `Validator.validate` (validator.py:117-149). -/
def Sys.validate (V : Cfg) (y : Sys) (p : Packet) (ok : Bool) : Sys :=
  let id := y.next
  let y := { y.emit (.called id p) with next := id + 1 }
  let (records, r) := checkOriginal V y.now y.records p
  let y := { y with records := records }
  let s : Session := { packet := p }
  match r with
  | .fail e => y.conclude V id false ok 3 (.fail s e [])
  | .raise e => y.conclude V id false ok 3 (.raise s e)
  | .ok (rec, .bypass) => y.conclude V id false ok 3 (.success { s with record := rec } [])
  | .ok (rec, .silent) => y.conclude V id false ok 3 (.silent { s with record := rec })
  | .ok (rec, .request name) =>
    let (st, out) := requestCertificate V y.now y.st { s with record := rec } name
    { y with st := st }.conclude V id false ok 3 out

/-- The network answers the `k`th pending request with a Data packet that matches its Interest.  A
further certificate request starts with 3 retries (certificate_request.py:40-46). -/
def Sys.onData (V : Cfg) (y : Sys) (k : Nat) (d : SData) (ok : Bool) : Sys :=
  match y.pending[k]? with
  | none => y
  | some p =>
    if (V.request p.name).matchesData d.name d.full d.data.signature.info = .ok true then
      let y := { y with pending := y.pending.eraseIdx k }
      let (st, out) := onCertificate V y.now y.st p.session d
      { y with st := st }.conclude V p.id true ok 3 out
    else y

/-- The `k`th pending request times out or is Nacked (certificate_fetcher_from_network.py:69-104).
If the retry sends the Interest again, the request has one retry less; if instead a certificate of the
unverified cache leads to another request, that one has 3. -/
def Sys.onTimeout (V : Cfg) (y : Sys) (k : Nat) (ok : Bool) : Sys :=
  match y.pending[k]? with
  | none => y
  | some p =>
    let y := { y with pending := y.pending.eraseIdx k }
    let (st, out) := refetch V y.now y.st p.session p.name (p.retriesLeft - 1)
    let retries := match out with
      | .fetch s _ => if s.chain.length = p.session.chain.length then p.retriesLeft - 1 else 3
      | _ => 3
    { y with st := st }.conclude V p.id true ok retries out

/-- The `for` loop that caches the chain as verified (validator.py:209-210), until one raises. -/
def cacheAll (now : Int) (v : Cache) : List SData → Cache × Option Err
  | [] => (v, none)
  | c :: cs =>
    match v.insert now c with
    | .error e => (v, some e)
    | .ok v => cacheAll now v cs

/-- The command policy's own success callback (validation_policy_command_interest.py:247-248). -/
def Sys.addRecord (y : Sys) : Option (Name × Nat) → Sys
  | some (kl, ts) => { y with records := insertRecord y.now kl ts y.records }
  | none => y

/-- A callback returns: the command policy's success callback inserts its record
(interest_validation_state.py:103-107), `setOutcome` raises if there is an outcome already
(validation_state.py:128-139), and the chain is cached.  An exception goes where it goes in
`conclude`. -/
def Sys.resume (y : Sys) (k : Nat) : Sys :=
  match y.frames[k]? with
  | none => y
  | some f =>
    let y := { y with frames := y.frames.eraseIdx k }
    let y := y.addRecord f.record
    let raise (y : Sys) (e : Err) : Sys :=
      if f.async then y.fail f.id true .cannotRetrieve [] else y.emit (.raised f.id e)
    if y.outcomes.any (fun o => o.1 == f.id) then raise y .runtime
    else
      let y := { y with outcomes := (f.id, f.outcome) :: y.outcomes }
      let (v, r) := cacheAll y.now y.st.verified f.cache
      let y := { y with st := { y.st with verified := v } }
      match r with
      | none => y
      | some e => raise y e

/-- The events. -/
inductive Event where
  | validate (p : Packet) (ok : Bool)
  | data (k : Nat) (d : SData) (ok : Bool)
  | timeout (k : Nat) (ok : Bool)
  | resume (k : Nat)
  | loadAnchor (group : String) (c : SData)
  | removeAnchor (group : String) (name : Name)
  /-- A dynamic group reads or drops a certificate file (dynamic_trust_anchor_group.py:63-106). -/
  | fileAdded (c : SData)
  | fileRemoved (name : Name)
  | resetAnchors
  /-- `cacheVerifiedCertificate` called by the application (certificate_storage.py:129-136). -/
  | cacheVerified (c : SData)
  /-- `cacheUnverifiedCertificate` called by the application (certificate_storage.py:64-70). -/
  | cacheUnverified (c : SData)
  | resetVerified
  | clock (t : Int)

def step (V : Cfg) (y : Sys) : Event → Sys
  | .validate p ok => y.validate V p ok
  | .data k d ok => y.onData V k d ok
  | .timeout k ok => y.onTimeout V k ok
  | .resume k => y.resume k
  | .loadAnchor g c => { y.emit (.trusted c) with st := y.st.loadAnchor g c }
  | .removeAnchor g n => { y with st := y.st.removeAnchor g n }
  | .fileAdded c =>
    match checkFormat c with
    | .error _ => y
    | .ok () => { y.emit (.trusted c) with st := { y.st with anchors := addAnchor c y.st.anchors } }
  | .fileRemoved n => { y with st := { y.st with anchors := Validator.removeAnchor n y.st.anchors } }
  | .resetAnchors => { y with st := y.st.resetAnchors }
  | .cacheVerified c =>
    match y.st.verified.insert y.now c with
    | .error _ => y
    | .ok v => { y.emit (.trusted c) with st := { y.st with verified := v } }
  | .cacheUnverified c =>
    match y.st.unverified.insert y.now c with
    | .error _ => y
    | .ok u => { y with st := { y.st with unverified := u } }
  | .resetVerified => { y with st := { y.st with verified := y.st.verified.clear } }
  | .clock t => { y.emit (.clock t) with now := t }

def init (t : Int) : Sys := { now := t, trace := [.clock t] }

def run (V : Cfg) (y : Sys) : List Event → Sys
  | [] => y
  | e :: es => run V (step V y e) es

end PyNDN.Validator
