import Verif.Model.ValidatorConfig
/-
Model of the `ConfigPolicyManager` (security/policy/config_policy_manager.py), with `CertificateCache` (policy/certificate_cache.py),
`IdentityCertificate` names (certificate/identity_certificate.py) and the verification by `KeyChain` (security/key_chain.py:1149-1272,
1750-1784), for both kinds of certificates ("security v1" and "security v2").

Parameters (`Env`): the regular expressions (C55), the files and directories at each time, the decoding of base64 text, the public key
in a v1 certificate, and the cryptographic check.  The application's callbacks can call back: what the library does after `onVerified`
of an Interest returns is a frame that is resumed by an event.  The network is a list of events; the Face may deliver any Data packet.
`expressInterest` is taken to return normally.  The reasons of failures are left out.
-/
namespace PyNDN.ConfigPolicy
open PyNDN PyNDN.Validator PyNDN.BoostInfo

/-- What the code calls, and the arguments of the constructor (config_policy_manager.py:90-112). -/
structure Env where
  isSecurityV1 : Bool
  maxDepth : Nat := 5
  graceInterval : Int := 3000
  keyTimestampTtl : Int := 3600000
  maxTrackedKeys : Nat := 1000
  /-- `NdnRegexTopMatcher(regex).match(name)`. -/
  regex : Str → Name → Except Err Bool
  /-- A new matcher that matches the name, and `expand`; none if the name does not match. -/
  expand : Str → Str → Name → Except Err (Option Name)
  /-- The certificate in a file at a time (config_policy_manager.py:915-939). -/
  file : Int → Str → Except Err SData
  /-- The certificate in base64 text (config_policy_manager.py:436-438, 469-471). -/
  base64 : Str → Except Err SData
  /-- The certificates in the files of a directory at a time; the other files are skipped (config_policy_manager.py:967-993). -/
  dir : Int → Str → Except Err (List SData)
  /-- The public key of a v1 certificate; an error if the Data packet cannot be decoded as a certificate. -/
  v1Key : SData → Except Err (Option Bytes)
  /-- `VerificationHelpers.verifySignature`. -/
  verify : Bytes → Option Bytes → Bytes → Except Err Bool

/-! ### Certificates -/

/-- The components before the last one that satisfies `p`. -/
def beforeLast (p : Component → Bool) : Name → Option Name
  | [] => none
  | c :: cs =>
    match beforeLast p cs with
    | some r => some (c :: r)
    | none => if p c then some [] else none

/-- The name without the first component that satisfies `p`. -/
def withoutFirst (p : Component → Bool) : Name → Option Name
  | [] => none
  | c :: cs => if p c then some cs else (withoutFirst p cs).map (c :: ·)

def isIdCert (c : Component) : Bool := c.toEscapedString == "ID-CERT".toList
def isKey (c : Component) : Bool := c.toEscapedString == "KEY".toList

/-- `IdentityCertificate.certificateNameToPublicKeyName` (identity_certificate.py:112-150). -/
def publicKeyName (n : Name) : Except Err Name :=
  match beforeLast isIdCert n with
  | none => .error .runtime
  | some temp =>
    match withoutFirst isKey temp with
    | none => .error .runtime
    | some k => .ok k

/-- `IdentityCertificate(data)` (identity_certificate.py:32-49) or `CertificateV2(data)`: an exception if the packet is not a
certificate. -/
def asCertificate (E : Env) (d : SData) : Except Err Unit :=
  if E.isSecurityV1 then
    match E.v1Key d with
    | .error e => .error e
    | .ok _ =>
      if d.name.any isIdCert && d.name.any isKey then
        match publicKeyName d.name with
        | .error e => .error e
        | .ok _ => .ok ()
      else .error .runtime
  else checkFormat d

/-- The certificate cache: a `CertificateCache` (certificate_cache.py:22-25; simplification: it has the certificates, not their
encodings) or a `CertificateCacheV2`. -/
inductive Store where
  | v1 (cache : List (Str × SData))
  | v2 (cache : Cache)

/-- A new cache. -/
def Store.new (isSecurityV1 : Bool) : Store := if isSecurityV1 then .v1 [] else .v2 { maxLifetime := 3600000 }

/-- `reset` or `clear` (certificate_cache.py:64-68; certificate_cache_v2.py:182-188). -/
def Store.clear : Store → Store
  | .v1 _ => .v1 []
  | .v2 c => .v2 c.clear

/-- `insertCertificate` or `insert` (certificate_cache.py:27-35; certificate_cache_v2.py:58-97). -/
def Store.insert (s : Store) (now : Int) (c : SData) : Except Err Store :=
  match s with
  | .v1 l => .ok (.v1 ((Name.toUri c.name.dropLast, c) :: l.filter fun e => e.1 ≠ Name.toUri c.name.dropLast))
  | .v2 cache =>
    match cache.insert now c with
    | .error e => .error e
    | .ok cache => .ok (.v2 cache)

/-- `getCertificate(name)` or `find(name)` (certificate_cache.py:49-62; certificate_cache_v2.py:112-127). -/
def Store.find (s : Store) (now : Int) (n : Name) : Store × Option SData :=
  match s with
  | .v1 l => (.v1 l, (l.find? fun e => e.1 == n.toUri).map Prod.snd)
  | .v2 cache =>
    let cache := cache.refresh now
    (.v2 cache,
      match ((cache.entries.map Entry.cert).dropWhile fun c => c.name.compare n < 0).head? with
      | some c => if n.matches c.name then some c else none
      | none => none)

/-- `deleteCertificate` in `refreshAnchors` (config_policy_manager.py:1010-1025).  Simplification: the names are not converted to URIs
and back. -/
def Store.delete (s : Store) (now : Int) (n : Name) : Store :=
  match s with
  | .v1 l => .v1 (l.filter fun e => e.1 ≠ n.toUri)
  | .v2 _ =>
    match s.find now n with
    | (.v2 cache, some c) => .v2 (cache.delete c.name)
    | (s, _) => s

/-! ### State -/

/-- A directory of trust anchors (config_policy_manager.py:995-998). -/
structure Dir where
  name : Str
  certificates : List Name
  nextRefresh : Int
  refreshPeriod : Nat

/-- A packet that waits for the verification of a certificate, with the step count of its check: the variables of
`onCertificateDownloadComplete` (config_policy_manager.py:689-716). -/
structure Level where
  packet : Packet
  step : Nat

/-- A `ValidationRequest` whose Interest has been expressed: the packets that wait, the innermost first. -/
structure Pending where
  id : Nat
  name : Name
  retry : Nat
  level : Level
  rest : List Level

/-- What is left to do after `onVerified(interest)`: `_updateTimestampForKey` (config_policy_manager.py:749-750). -/
structure Frame where
  id : Nat
  key : Str
  timestamp : Nat

/-- What can be observed: the calls of `verifyData` and `verifyInterest`, the calls of their callbacks with the packet given to them,
exceptions to the caller (or to the Face), the ends without any callback, the Interests expressed, the certificates that the
application puts into its cache, and the exceptions of `load` and after `onVerified`. -/
inductive Ev where
  | called (id : Nat) (p : Packet)
  | verified (id : Nat) (p : Packet)
  | failed (id : Nat) (p : Packet)
  | raised (id : Nat) (e : Err)
  | dropped (id : Nat)
  | express (id : Nat) (name : Name)
  | inserted (c : SData)
  | loadError (e : Err)
  | updateError (id : Nat) (e : Err)

/-- The policy manager (config_policy_manager.py:109-140), the refresh manager (config_policy_manager.py:906-913) and the requests of
the `KeyChain`.  `fixed` is `_fixedCertificateCache`; simplification: it has the names, not their URIs. -/
structure Sys where
  now : Int
  requiresVerification : Bool := true
  config : Tree := Tree.empty none
  store : Store
  anchors : Store
  dirs : List Dir := []
  fixed : List (Str × Name) := []
  timestamps : List (Str × Nat) := []
  next : Nat := 0
  pending : List Pending := []
  frames : List Frame := []
  trace : List Ev := []

def Sys.emit (y : Sys) (e : Ev) : Sys := { y with trace := y.trace ++ [e] }

/-! ### Trust anchors -/

/-- The value that must be a string. -/
def string : Option Str → Except Err Str
  | none => .error .type
  | some v => .ok v

/-- `tree[key][0].getValue()`. -/
def value (t : Tree) (key : String) : Except Err (Option Str) :=
  match t.get key.toList with
  | [] => .error .index
  | u :: _ => .ok u.value

/-- Where a certificate is given: the text of a configuration value, and whether it is a path. -/
abbrev CertId := Str × Bool

/-- Read a certificate (config_policy_manager.py:431-438, 464-471). -/
def readCertificate (E : Env) (now : Int) (certId : CertId) : Except Err SData :=
  if certId.2 then E.file now certId.1 else E.base64 certId.1

/-- `_lookupCertificate` and `_lookupCertificateV2` (config_policy_manager.py:415-479). -/
def lookupCertificate (E : Env) (y : Sys) (certId : CertId) : Sys × Except Err (Option SData) :=
  match y.fixed.find? fun e => e.1 == certId.1 with
  | none =>
    match readCertificate E y.now certId with
    | .error e => (y, .error e)
    | .ok c =>
      let y := { y with fixed := (certId.1, c.name.dropLast) :: y.fixed }
      match y.store.insert y.now c with
      | .error e => (y, .error e)
      | .ok s => ({ y with store := s }, .ok (some c))
  | some (_, n) =>
    let (s, r) := y.store.find y.now n
    ({ y with store := s }, .ok r)

/-- The name under which a certificate of a directory is deleted later (config_policy_manager.py:979, 990-991). -/
def dirName (E : Env) (c : SData) : Name := if E.isSecurityV1 then c.name.dropLast else c.name.take (c.name.length - 2)

/-- The loop that inserts the certificates of a directory (config_policy_manager.py:970-993). -/
def insertAll (now : Int) : List SData → Store → Store × Except Err Unit
  | [], s => (s, .ok ())
  | c :: cs, s =>
    match s.insert now c with
    | .error e => (s, .error e)
    | .ok s => insertAll now cs s

/-- Set an entry of `_refreshDirectories`. -/
def setDir (d : Dir) : List Dir → List Dir
  | [] => [d]
  | x :: xs => if x.name = d.name then d :: xs else x :: setDir d xs

/-- `addDirectory` (config_policy_manager.py:966-998). -/
def addDirectory (E : Env) (y : Sys) (name : Str) (refreshPeriod : Nat) : Sys × Except Err Unit :=
  match E.dir y.now name with
  | .error e => (y, .error e)
  | .ok cs =>
    match insertAll y.now cs y.anchors with
    | (s, .error e) => ({ y with anchors := s }, .error e)
    | (s, .ok ()) =>
      ({ y with
         anchors := s
         dirs := setDir ⟨name, cs.map (dirName E), y.now + refreshPeriod, refreshPeriod⟩ y.dirs }, .ok ())

/-- The loop of `refreshAnchors` (config_policy_manager.py:1002-1027). -/
def refreshDirs (E : Env) : List Dir → Sys → Sys × Except Err Unit
  | [], y => (y, .ok ())
  | d :: ds, y =>
    if d.nextRefresh ≤ y.now then
      let y := { y with anchors := d.certificates.foldl (fun s n => s.delete y.now n) y.anchors }
      match addDirectory E y d.name d.refreshPeriod with
      | (y, .error e) => (y, .error e)
      | (y, .ok ()) => refreshDirs E ds y
    else refreshDirs E ds y

/-- `refreshAnchors` (config_policy_manager.py:1000-1027). -/
def refreshAnchors (E : Env) (y : Sys) : Sys × Except Err Unit := refreshDirs E y.dirs y

/-- The refresh period of a directory in seconds (config_policy_manager.py:210-223).  `anchor["refresh"][0]` raises IndexError, not
KeyError, if there is none. -/
def refreshPeriod (anchor : Tree) : Except Err Nat := do
  let v ← value anchor "refresh"
  let s ← string v
  match ValidatorConfig.matchRefresh s with
  | none => return 0
  | some (n, u) => return (if u ≠ 's' then (if u ≠ 'm' then n * 60 * 60 else n * 60) else n)

/-- What a trust anchor section asks for. -/
inductive AnchorAction where
  | look (certId : CertId)
  | dir (name : Str) (refreshPeriod : Nat)
  | any
  /-- An unknown type: the variables have the values of an earlier turn of the loop. -/
  | unknown

/-- One turn of the loop of `_loadTrustAnchorCertificates` (config_policy_manager.py:201-231) up to the lookup. -/
def anchorAction (anchor : Tree) : Except Err AnchorAction := do
  let typeName ← value anchor "type"
  if typeName = some "file".toList then
    let v ← value anchor "file-name"
    let f ← string v
    return .look (f, true)
  else if typeName = some "base64".toList then
    let v ← value anchor "base64-string"
    let s ← string v
    return .look (s, false)
  else if typeName = some "dir".toList then
    let v ← value anchor "dir"
    let period ← refreshPeriod anchor
    let d ← string v
    return .dir d period
  else if typeName = some "any".toList then return .any
  else return .unknown

/-- `_loadTrustAnchorCertificates` (config_policy_manager.py:187-236).  `prev` are the variables of the previous turn. -/
def loadAnchors (E : Env) : List Tree → Option CertId → Sys → Sys × Except Err Unit
  | [], _, y => (y, .ok ())
  | anchor :: rest, prev, y =>
    match anchorAction anchor with
    | .error e => (y, .error e)
    | .ok (.dir d period) =>
      match addDirectory E y d (period * 1000) with
      | (y, .error e) => (y, .error e)
      | (y, .ok ()) => loadAnchors E rest prev y
    | .ok .any => ({ y with requiresVerification := false }, .ok ())
    | .ok (.look certId) =>
      match lookupCertificate E y certId with
      | (y, .error e) => (y, .error e)
      | (y, .ok _) => loadAnchors E rest (some certId) y
    | .ok .unknown =>
      match prev with
      | none => (y, .error .runtime)
      | some certId =>
        match lookupCertificate E y certId with
        | (y, .error e) => (y, .error e)
        | (y, .ok _) => loadAnchors E rest prev y

/-- `load` with a configuration that can be read (config_policy_manager.py:119-158). -/
def Sys.load (E : Env) (y : Sys) (config : Tree) : Sys :=
  let y := { y with
    store := y.store.clear, fixed := [], timestamps := [], requiresVerification := true, config := config
    anchors := Store.new E.isSecurityV1, dirs := [] }
  match loadAnchors E (config.get "validator/trust-anchor".toList) none y with
  | (y, .ok ()) => y
  | (y, .error e) => y.emit (.loadError e)

/-! ### Rules -/

/-- `_matchesRelation` (config_policy_manager.py:518-541). -/
def matchesRelation (name matchName : Name) (relation : Option Str) : Bool :=
  if relation = some "is-strict-prefix-of".toList then
    if matchName.length = name.length then false else matchName.matches name
  else if relation = some "is-prefix-of".toList then matchName.matches name
  else if relation = some "equal".toList then matchName.equals name
  else false

/-- `Name(uri)`, where the URI may be None. -/
def nameOf : Option Str → Except Err Name
  | none => .ok []
  | some uri => parseUri uri

/-- The test of one filter (config_policy_manager.py:502-509). -/
def filterPasses (E : Env) (f : Tree) (name : Name) : Except Err Bool :=
  match f.getFirstValue "regex".toList with
  | none => do
    let matchName ← nameOf (f.getFirstValue "name".toList)
    return matchesRelation name matchName (f.getFirstValue "relation".toList)
  | some x => E.regex x name

/-- The loop over the filters (config_policy_manager.py:499-512). -/
def filtersPass (E : Env) (name : Name) : List Tree → Except Err Bool
  | [] => .ok true
  | f :: fs => do
    if ← filterPasses E f name then filtersPass E name fs else return false

/-- The loop of `_findMatchingRule` (config_policy_manager.py:490-516). -/
def findRule (E : Env) (name : Name) (matchType : Str) : List Tree → Except Err (Option Tree)
  | [] => .ok none
  | r :: rs => do
    let v ← value r "for"
    if v = some matchType then
      if ← filtersPass E name (r.get "filter".toList) then return some r
      else findRule E name matchType rs
    else findRule E name matchType rs

/-- The regular expressions of the hierarchical checker (config_policy_manager.py:310, 325). -/
def identityRegex : Str := "^([^<KEY>]*)<KEY>(<>*)<ksk-.+><ID-CERT>".toList
def identityRegex2 : Str := "^(<>*)<KEY><>$".toList

/-- The hierarchical checker (config_policy_manager.py:307-340). -/
def checkHierarchical (E : Env) (signatureName objectName : Name) : Except Err Bool := do
  match ← E.expand identityRegex "\\1".toList signatureName with
  | some a =>
    match ← E.expand identityRegex "\\2".toList signatureName with
    | some b => return matchesRelation objectName (a ++ b) (some "is-prefix-of".toList)
    | none => return false
  | none =>
    if E.isSecurityV1 then return false
    else
      match ← E.expand identityRegex2 "\\1".toList signatureName with
      | some a => return matchesRelation objectName a (some "is-prefix-of".toList)
      | none => return false

/-- A hyper-relation (config_policy_manager.py:369-413). -/
def checkHyper (E : Env) (signatureName objectName : Name) (info : Tree) : Except Err Bool :=
  match info.get "hyper-relation".toList with
  | [] => .ok false
  | h :: _ =>
    match h.getFirstValue "k-regex".toList, h.getFirstValue "k-expand".toList, h.getFirstValue "p-regex".toList,
        h.getFirstValue "p-expand".toList, h.getFirstValue "h-relation".toList with
    | some keyRegex, some keyExpansion, some nameRegex, some nameExpansion, some relation => do
      match ← E.expand keyRegex keyExpansion signatureName with
      | none => return false
      | some keyMatchPrefix =>
        match ← E.expand nameRegex nameExpansion objectName with
        | none => return false
        | some nameMatchExpansion => return matchesRelation nameMatchExpansion keyMatchPrefix (some relation)
    | _, _, _, _, _ => .ok false

/-- The customized checker (config_policy_manager.py:341-413).  Only the first key-locator section counts. -/
def checkCustomized (E : Env) (signatureName objectName : Name) (checker : Tree) : Except Err Bool :=
  match checker.get "key-locator".toList with
  | [] => .error .index
  | info :: _ =>
    match info.getFirstValue "relation".toList with
    | some relation => do
      let uri ← value info "name"
      let matchName ← nameOf uri
      return matchesRelation signatureName matchName (some relation)
    | none =>
      match info.getFirstValue "regex".toList with
      | some x => E.regex x signatureName
      | none => checkHyper E signatureName objectName info

/-- The certificate of a fixed-signer checker (config_policy_manager.py:259-298); none if the type of the signer is unknown. -/
def signerId (checker : Tree) : Except Err (Option CertId) :=
  match checker.get "signer".toList with
  | [] => .error .index
  | info :: _ => do
    let signerType ← value info "type"
    if signerType = some "file".toList then
      let v ← value info "file-name"
      let f ← string v
      return some (f, true)
    else if signerType = some "base64".toList then
      let v ← value info "base64-string"
      let s ← string v
      return some (s, false)
    else return none

/-- The fixed-signer checker (config_policy_manager.py:258-306). -/
def checkFixed (E : Env) (y : Sys) (signatureName : Name) (checker : Tree) : Sys × Except Err Bool :=
  match signerId checker with
  | .error e => (y, .error e)
  | .ok none => (y, .ok false)
  | .ok (some certId) =>
    match lookupCertificate E y certId with
    | (y, .error e) => (y, .error e)
    | (y, .ok none) => (y, .ok false)
    | (y, .ok (some c)) => (y, .ok (c.name.equals signatureName))

/-- `_checkSignatureMatch` (config_policy_manager.py:238-413).  Only the first checker of the rule counts. -/
def checkSignatureMatch (E : Env) (y : Sys) (signatureName objectName : Name) (rule : Tree) : Sys × Except Err Bool :=
  match rule.get "checker".toList with
  | [] => (y, .error .index)
  | checker :: _ =>
    match value checker "type" with
    | .error e => (y, .error e)
    | .ok checkerType =>
      if checkerType = some "fixed-signer".toList then checkFixed E y signatureName checker
      else if checkerType = some "hierarchical".toList then (y, checkHierarchical E signatureName objectName)
      else if checkerType = some "customized".toList then (y, checkCustomized E signatureName objectName checker)
      else (y, .ok false)

/-! ### The check of a packet -/

/-- `_extractSignature` (config_policy_manager.py:543-566). -/
def extractSignature : Packet → Option Signature
  | .data d => some d.data.signature
  | .interest i _ => (interestSignature i.name).toOption

/-- The refresh manager's or the own cache (config_policy_manager.py:817-828, 856-881). -/
def findCertificate (y : Sys) (n : Name) : Sys × Option SData :=
  match y.anchors.find y.now n with
  | (a, some c) => ({ y with anchors := a }, some c)
  | (a, none) =>
    let (s, r) := y.store.find y.now n
    ({ y with anchors := a, store := s }, r)

/-- The result of `_getCertificateInterest`. -/
inductive Need where
  | fail
  | certificate (name : Name)
  | nothing

/-- `_getCertificateInterest` (config_policy_manager.py:757-830).  Too many steps raise TypeError (a string plus a number). -/
def getCertificateInterest (E : Env) (y : Sys) (step : Nat) (matchType : Str) (objectName : Name) (signature : Signature) :
    Sys × Except Err Need :=
  if step > E.maxDepth then (y, .error .type)
  else
    match findRule E objectName matchType (y.config.get "validator/rule".toList) with
    | .error _ => (y, .ok .fail)
    | .ok none => (y, .ok .fail)
    | .ok (some rule) =>
      match signature.info.keyLocator? with
      | none => (y, .ok .fail)
      | some kl =>
        if kl.keyName.length = 0 then (y, .ok .fail)
        else
          match checkSignatureMatch E y kl.keyName objectName rule with
          | (y, .error e) => (y, .error e)
          | (y, .ok false) => (y, .ok .fail)
          | (y, .ok true) =>
            match refreshAnchors E y with
            | (y, .error e) => (y, .error e)
            | (y, .ok ()) =>
              match findCertificate y kl.keyName with
              | (y, none) => (y, .ok (.certificate kl.keyName))
              | (y, some _) => (y, .ok .nothing)

/-- `_interestTimestampIsFresh` (config_policy_manager.py:568-597). -/
def timestampIsFresh (E : Env) (y : Sys) (key : Str) (timestamp : Nat) : Bool :=
  match y.timestamps.find? fun e => e.1 == key with
  | none => decide ((timestamp : Int) > y.now - E.graceInterval ∧ (timestamp : Int) < y.now + E.graceInterval)
  | some (_, last) => !decide (timestamp ≤ last)

/-- `PolicyManager.verifySignature` (policy_manager.py:129-160) for a signature with a key locator. -/
def verifySignature (E : Env) (signature : Signature) (signed key : Bytes) : Except Err Bool :=
  match signature.info with
  | .rsa _ _ => E.verify signed signature.signature key
  | .ecdsa _ _ => E.verify signed signature.signature key
  | _ => .error .runtime

/-- The public key of a certificate (config_policy_manager.py:866-872, 883-890). -/
def publicKey (E : Env) (c : SData) : Except Err (Option Bytes) :=
  if E.isSecurityV1 then E.v1Key c
  else if blobSize c.data.content = 0 then .ok none
  else .ok c.data.content

/-- `_verify` (config_policy_manager.py:832-900). -/
def verifyWith (E : Env) (y : Sys) (signature : Signature) (signed : Bytes) : Sys × Except Err Bool :=
  match signature.info.keyLocator? with
  | none => (y, .error .runtime)
  | some kl =>
    if kl.type ≠ some 1 then (y, .ok false)
    else
      match findCertificate y kl.keyName with
      | (y, none) => (y, .ok false)
      | (y, some c) =>
        match publicKey E c with
        | .error e => (y, .error e)
        | .ok none => (y, .ok false)
        | .ok (some key) => (y, verifySignature E signature signed key)

/-- `wireEncode().toSignedBytes()`. -/
def signedPortion : Packet → Except Err Bytes
  | .data d => d.signed
  | .interest _ signed => signed

/-- The name that the rules look at and the kind of rule (config_policy_manager.py:658-665). -/
def subjectOf : Packet → Except Err (Name × Str)
  | .data d => .ok (d.data.name, "data".toList)
  | .interest i _ =>
    match getPrefix i.name (-4) with
    | .error e => .error e
    | .ok n => .ok (n, "interest".toList)

/-- The key name of a command Interest (config_policy_manager.py:726-731). -/
def keyNameOf (E : Env) (signature : Signature) : Except Err Name :=
  match signature.info.keyLocator? with
  | none => .error .runtime
  | some kl => if E.isSecurityV1 then publicKeyName kl.keyName else .ok kl.keyName

/-- The key and the timestamp of a command Interest (config_policy_manager.py:725-732). -/
def commandOf (E : Env) (p : Packet) (signature : Signature) : Except Err (Option (Str × Nat)) :=
  match p with
  | .data _ => .ok none
  | .interest i _ => do
    let keyName ← keyNameOf E signature
    let c ← pyIndex i.name (-4)
    return some (keyName.toUri, c.toNumber)

/-- Whether the timestamp allows the packet (config_policy_manager.py:734-740). -/
def isFresh (E : Env) (y : Sys) : Option (Str × Nat) → Bool
  | none => true
  | some (key, timestamp) => timestampIsFresh E y key timestamp

/-- What `checkVerificationPolicy` does with the packet. -/
inductive Verdict where
  | fail
  | request (name : Name)
  | good (command : Option (Str × Nat))
  | raise (e : Err)

/-- The check when the certificate is known (config_policy_manager.py:722-744). -/
def checkKnown (E : Env) (y : Sys) (p : Packet) (signature : Signature) : Sys × Verdict :=
  match commandOf E p signature with
  | .error e => (y, .raise e)
  | .ok command =>
    if isFresh E y command then
      match signedPortion p with
      | .error e => (y, .raise e)
      | .ok signed =>
        match verifyWith E y signature signed with
        | (y, .error e) => (y, .raise e)
        | (y, .ok true) => (y, .good command)
        | (y, .ok false) => (y, .fail)
    else (y, .fail)

/-- `checkVerificationPolicy` up to the call of a callback (config_policy_manager.py:658-744). -/
def decidePacket (E : Env) (y : Sys) (p : Packet) (step : Nat) : Sys × Verdict :=
  match subjectOf p with
  | .error e => (y, .raise e)
  | .ok (objectName, matchType) =>
    match extractSignature p with
    | none => (y, .fail)
    | some signature =>
      match getCertificateInterest E y step matchType objectName signature with
      | (y, .error e) => (y, .raise e)
      | (y, .ok .fail) => (y, .fail)
      | (y, .ok (.certificate n)) => (y, .request n)
      | (y, .ok .nothing) => checkKnown E y p signature

/-- `onVerified` of a packet: the application's callback, or `onCertificateDownloadComplete`
(config_policy_manager.py:689-716, 744-750).  What the check of the next packet returns is not used, and its exceptions are logged. -/
def complete (E : Env) (y : Sys) (id : Nat) (p : Packet) (command : Option (Str × Nat)) : List Level → Sys
  | [] =>
    { y.emit (.verified id p) with
      frames := y.frames ++ (command.map fun c => (⟨id, c.1, c.2⟩ : Frame)).toList }
  | l :: rest =>
    match p with
    | .interest _ _ => y.emit (.dropped id)
    | .data d =>
      match asCertificate E d with
      | .error _ => y.emit (.failed id l.packet)
      | .ok () =>
        match y.store.insert y.now d with
        | .error _ => y.emit (.dropped id)
        | .ok s =>
          match decidePacket E { y with store := s } l.packet (l.step + 1) with
          | (y, .raise _) => y.emit (.dropped id)
          | (y, .fail) => y.emit (.failed id l.packet)
          | (y, .request _) => y.emit (.dropped id)
          | (y, .good command) => complete E y id l.packet command rest

/-- `verifyData` and `verifyInterest` (key_chain.py:1189-1210, 1255-1272). -/
def Sys.verify (E : Env) (y : Sys) (id : Nat) (p : Packet) (step : Nat) (rest : List Level) : Sys :=
  if y.requiresVerification then
    match decidePacket E y p step with
    | (y, .raise e) => y.emit (.raised id e)
    | (y, .fail) => y.emit (.failed id p)
    | (y, .request n) => { y.emit (.express id n) with pending := y.pending ++ [⟨id, n, 2, ⟨p, step⟩, rest⟩] }
    | (y, .good command) => complete E y id p command rest
  else complete E y id p none rest

/-! ### Timestamps -/

/-- Set an entry of a dictionary. -/
def setTimestamp (key : Str) (t : Nat) : List (Str × Nat) → List (Str × Nat)
  | [] => [(key, t)]
  | e :: es => if e.1 = key then (key, t) :: es else e :: setTimestamp key t es

/-- The oldest timestamp before `oldest` in the loop of `_updateTimestampForKey` (config_policy_manager.py:622-624). -/
def oldestKey (oldest : Int) (key : Option Str) : List (Str × Nat) → Option Str
  | [] => key
  | e :: es => if (e.2 : Int) < oldest then oldestKey e.2 (some e.1) es else oldestKey oldest key es

/-- `_updateTimestampForKey` (config_policy_manager.py:599-628).  In Python 3, deleting an entry in the loop over `keys()` makes the
loop raise RuntimeError. -/
def updateTimestamp (E : Env) (now : Int) (key : Str) (t : Nat) (l : List (Str × Nat)) : List (Str × Nat) × Option Err :=
  let l := setTimestamp key t l
  if l.length ≥ E.maxTrackedKeys then
    match l.find? fun e => decide (now - (e.2 : Int) > E.keyTimestampTtl) with
    | some old => (l.filter fun e => e.1 ≠ old.1, some .runtime)
    | none =>
      if l.length > E.maxTrackedKeys then
        match oldestKey now none l with
        | none => (l, some .key)
        | some k => (l.filter fun e => e.1 ≠ k, none)
      else (l, none)
  else (l, none)

/-! ### Histories -/

/-- The Face answers the `k`th request with a Data packet (key_chain.py:1750-1759). -/
def Sys.onData (E : Env) (y : Sys) (k : Nat) (d : SData) : Sys :=
  match y.pending[k]? with
  | none => y
  | some r => { y with pending := y.pending.eraseIdx k }.verify E r.id (.data d) (r.level.step + 1) (r.level :: r.rest)

/-- The `k`th request times out (key_chain.py:1761-1784). -/
def Sys.onTimeout (y : Sys) (k : Nat) : Sys :=
  match y.pending[k]? with
  | none => y
  | some r =>
    let y := { y with pending := y.pending.eraseIdx k }
    if r.retry > 0 then
      { y.emit (.express r.id r.name) with pending := y.pending ++ [{ r with retry := r.retry - 1 }] }
    else y.emit (.failed r.id r.level.packet)

/-- The `k`th callback returns. -/
def Sys.resume (E : Env) (y : Sys) (k : Nat) : Sys :=
  match y.frames[k]? with
  | none => y
  | some f =>
    let y := { y with frames := y.frames.eraseIdx k }
    match updateTimestamp E y.now f.key f.timestamp y.timestamps with
    | (l, none) => { y with timestamps := l }
    | (l, some e) => { y with timestamps := l }.emit (.updateError f.id e)

/-- The events. -/
inductive Event where
  | verify (p : Packet) (step : Nat)
  | data (k : Nat) (d : SData)
  | timeout (k : Nat)
  | resume (k : Nat)
  /-- The application inserts a certificate into its cache. -/
  | insert (c : SData)
  | clock (t : Int)
  | load (config : Tree)

def step (E : Env) (y : Sys) : Event → Sys
  | .verify p n => { y.emit (.called y.next p) with next := y.next + 1 }.verify E y.next p n []
  | .data k d => y.onData E k d
  | .timeout k => y.onTimeout k
  | .resume k => y.resume E k
  | .insert c =>
    match y.store.insert y.now c with
    | .error _ => y
    | .ok s => { y.emit (.inserted c) with store := s }
  | .clock t => { y with now := t }
  | .load config => y.load E config

def run (E : Env) (y : Sys) : List Event → Sys
  | [] => y
  | e :: es => run E (step E y e) es

/-- A new policy manager without a configuration. -/
def init (E : Env) (t : Int) : Sys := { now := t, store := Store.new E.isSecurityV1, anchors := Store.new E.isSecurityV1 }

end PyNDN.ConfigPolicy
