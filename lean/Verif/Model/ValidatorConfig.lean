import Verif.Model.BoostInfo
import Verif.Model.Validator
/-
Model of loading a validator configuration: `ValidationPolicyConfig.load` (validation_policy_config.py), `ConfigRule.create`,
`ConfigFilter.create`, `ConfigChecker.create` (validator_config/*.py).  The regular expressions, the decoding of a certificate from
base64 and the trust anchors of the validator are parameters.
-/
namespace PyNDN.ValidatorConfig
open PyNDN PyNDN.Validator PyNDN.BoostInfo

/-- `ValidatorConfigError`, or another exception. -/
inductive LoadErr where
  | config
  | other (e : Err)
  deriving DecidableEq

/-- A call of `Validator.loadAnchor`: `(fileName, fileName, refreshPeriod, False)`, `("", certificate)` or
`(dir, dir, refreshPeriod, True)`; the refresh period in milliseconds. -/
inductive AnchorCall (C : Type) where
  | file (fileName : Str) (refreshPeriod : Nat)
  | certificate (c : C)
  | dir (dirName : Str) (refreshPeriod : Nat)

/-- What the code calls: `NdnRegexTopMatcher(regex).match`, a regex with its expansion (none is an exception of the constructor),
`b64decode` with `CertificateV2.wireDecode`, and the trust anchors `A` of the validator. -/
structure Env (A C : Type) where
  regex : Str → Option (Name → Bool)
  hyper : Str → Str → Option (Name → Option Name)
  certificate : Str → Except LoadErr C
  loadAnchor : AnchorCall C → A → A × Except LoadErr Unit
  reset : A → A

/-- `s.lower()`, as far as it is compared with words of ASCII letters without k. -/
def lower (s : Str) : Str := s.map Char.toLower

/-- `getFirstValue(key)` that must not be None. -/
def expect (t : Tree) (key : String) : Except LoadErr Str :=
  match t.getFirstValue key.toList with
  | none => .error .config
  | some v => .ok v

/-- `ConfigNameRelation.getNameRelationFromString` (config_name_relation.py:74-92). -/
def relationFromString (s : Str) : Except LoadErr Relation :=
  if lower s = "equal".toList then .ok .equal
  else if lower s = "is-prefix-of".toList then .ok .isPrefixOf
  else if lower s = "is-strict-prefix-of".toList then .ok .isStrictPrefixOf
  else .error .config

/-- `Name(uri)`. -/
def nameFromUri (uri : Str) : Except LoadErr Name :=
  match parseUri uri with
  | .ok n => .ok n
  | .error e => .error (.other e)

variable {A C : Type}

/-- `_createNameFilter` (config_filter.py:86-118). -/
def createNameFilter (E : Env A C) (t : Tree) : Except LoadErr Filter :=
  match t.getFirstValue "name".toList with
  | some nameUri => do
    let name ← nameFromUri nameUri
    let relationValue ← expect t "relation"
    let relation ← relationFromString relationValue
    return .relation name relation
  | none =>
    match t.getFirstValue "regex".toList with
    | some regexString =>
      match E.regex regexString with
      | some f => .ok (.regex f)
      | none => .error .config
    | none => .error .config

/-- `ConfigFilter.create` (config_filter.py:56-73). -/
def createFilter (E : Env A C) (t : Tree) : Except LoadErr Filter := do
  let filterType ← expect t "type"
  if lower filterType = "name".toList then createNameFilter E t else .error .config

/-- `hyper-relation` (config_checker.py:176-215). -/
def createHyper (E : Env A C) (t : Tree) : Except LoadErr Checker := do
  let keyRegex ← expect t "k-regex"
  let keyExpansion ← expect t "k-expand"
  let hyperRelationString ← expect t "h-relation"
  let packetNameRegex ← expect t "p-regex"
  let packetNameExpansion ← expect t "p-expand"
  let relation ← relationFromString hyperRelationString
  match E.hyper packetNameRegex packetNameExpansion, E.hyper keyRegex keyExpansion with
  | some p, some k => return .hyper p k relation
  | _, _ => .error .config

/-- `_createKeyLocatorNameChecker` (config_checker.py:146-217). -/
def createKeyLocatorNameChecker (E : Env A C) (t : Tree) : Except LoadErr Checker :=
  match t.getFirstValue "name".toList with
  | some nameUri => do
    let name ← nameFromUri nameUri
    let relationValue ← expect t "relation"
    let relation ← relationFromString relationValue
    return .relation name relation
  | none =>
    match t.getFirstValue "regex".toList with
    | some regexString =>
      match E.regex regexString with
      | some f => .ok (.regex f)
      | none => .error .config
    | none =>
      match t.get "hyper-relation".toList with
      | [hyperRelation] => createHyper E hyperRelation
      | _ => .error .config

/-- `_createKeyLocatorChecker` (config_checker.py:129-144). -/
def createKeyLocatorChecker (E : Env A C) (t : Tree) : Except LoadErr Checker := do
  let keyLocatorType ← expect t "type"
  if lower keyLocatorType = "name".toList then createKeyLocatorNameChecker E t else .error .config

/-- `_createCustomizedChecker` (config_checker.py:103-115). -/
def createCustomizedChecker (E : Env A C) (t : Tree) : Except LoadErr Checker :=
  match t.get "key-locator".toList with
  | [keyLocatorSection] => createKeyLocatorChecker E keyLocatorSection
  | _ => .error .config

/-- `ConfigChecker.create` (config_checker.py:64-84). -/
def createChecker (E : Env A C) (t : Tree) : Except LoadErr Checker := do
  let checkerType ← expect t "type"
  if lower checkerType = "customized".toList then createCustomizedChecker E t
  else if lower checkerType = "hierarchical".toList then .ok hierarchicalChecker
  else .error .config

/-- What a rule is for (config_rule.py:170-176). -/
def usageOf (usage : Str) : Except LoadErr Bool :=
  if lower usage = "data".toList then .ok false
  else if lower usage = "interest".toList then .ok true
  else .error .config

/-- `ConfigRule.create` (config_rule.py:150-195). -/
def createRule (E : Env A C) (t : Tree) : Except LoadErr Rule := do
  let _ ← expect t "id"
  let usage ← expect t "for"
  let isForInterest ← usageOf usage
  let filters ← (t.get "filter".toList).mapM (createFilter E)
  let checkers ← (t.get "checker".toList).mapM (createChecker E)
  if checkers.length = 0 then .error .config
  else return ⟨isForInterest, filters, checkers⟩

/-- The policy (validation_policy_config.py:45-51), with the trust anchors of its validator. -/
structure State (A : Type) where
  shouldBypass : Bool
  isConfigured : Bool
  dataRules : List Rule
  interestRules : List Rule
  anchors : A

/-- A new policy. -/
def State.initial (anchors : A) : State A := ⟨false, false, [], [], anchors⟩

/-- What `checkPolicy` works with (validation_policy_config.py:117-171). -/
def State.policy (s : State A) : Policy := .config s.shouldBypass s.dataRules s.interestRules

/-- The loop over the rules (validation_policy_config.py:104-110). -/
def loadRules (E : Env A C) : List Tree → State A → State A × Except LoadErr Unit
  | [], s => (s, .ok ())
  | t :: ts, s =>
    match createRule E t with
    | .error e => (s, .error e)
    | .ok rule =>
      loadRules E ts
        (if rule.isForInterest then { s with interestRules := s.interestRules ++ [rule] }
         else { s with dataRules := s.dataRules ++ [rule] })

/-- `re.match('(\\d+)([hms])', s)`: the number and the unit.  Simplification: `\\d` is taken as the ASCII digits. -/
def matchRefresh (s : Str) : Option (Nat × Char) :=
  let digits := s.takeWhile fun c => decide (48 ≤ c.toNat ∧ c.toNat ≤ 57)
  if digits.length = 0 then none
  else
    match (s.drop digits.length).head? with
    | some u => if u = 'h' ∨ u = 'm' ∨ u = 's' then some (digits.foldl (fun n c => n * 10 + (c.toNat - 48)) 0, u) else none
    | none => none

/-- `_getRefreshPeriod` (validation_policy_config.py:227-257).  Simplification: the result is a float. -/
def getRefreshPeriod (t : Tree) : Nat :=
  match t.getFirstValue "refresh".toList with
  | none => 100000000000000
  | some refreshString =>
    let refreshSeconds :=
      match matchRefresh refreshString with
      | some (n, u) =>
        if u ≠ 's' then (if u ≠ 'm' then n * 60 * 60 else n * 60) else n
      | none => 0
    if refreshSeconds = 0 then 3600 * 1000 else refreshSeconds * 1000

/-- What an anchor section asks for (validation_policy_config.py:173-225): a call of `loadAnchor`, or the bypass. -/
def anchorOf (E : Env A C) (t : Tree) : Except LoadErr (Option (AnchorCall C)) := do
  let anchorType ← expect t "type"
  if lower anchorType = "file".toList then
    let fileName ← expect t "file-name"
    return some (.file fileName (getRefreshPeriod t))
  else if lower anchorType = "base64".toList then
    let base64String ← expect t "base64-string"
    let certificate ← E.certificate base64String
    return some (.certificate certificate)
  else if lower anchorType = "dir".toList then
    let dirString ← expect t "dir"
    return some (.dir dirString (getRefreshPeriod t))
  else if lower anchorType = "any".toList then return none
  else .error .config

/-- `_processConfigTrustAnchor` (validation_policy_config.py:173-225). -/
def processAnchor (E : Env A C) (t : Tree) (s : State A) : State A × Except LoadErr Unit :=
  match anchorOf E t with
  | .error e => (s, .error e)
  | .ok none => ({ s with shouldBypass := true }, .ok ())
  | .ok (some call) =>
    let (anchors, r) := E.loadAnchor call s.anchors
    ({ s with anchors := anchors }, r)

/-- The loop over the trust anchors (validation_policy_config.py:112-115). -/
def loadAnchors (E : Env A C) : List Tree → State A → State A × Except LoadErr Unit
  | [], s => (s, .ok ())
  | t :: ts, s =>
    match processAnchor E t s with
    | (s, .error e) => (s, .error e)
    | (s, .ok ()) => loadAnchors E ts s

/-- `load(configSection, inputName)` (validation_policy_config.py:84-115).  The state is what remains also after an exception. -/
def load (E : Env A C) (t : Tree) (s : State A) : State A × Except LoadErr Unit :=
  let s : State A := if s.isConfigured then ⟨false, true, [], [], E.reset s.anchors⟩ else { s with isConfigured := true }
  match t.get "validator".toList with
  | [validatorSection] =>
    match loadRules E (validatorSection.get "rule".toList) s with
    | (s, .error e) => (s, .error e)
    | (s, .ok ()) => loadAnchors E (validatorSection.get "trust-anchor".toList) s
  | _ => (s, .error .config)

/-- `load(input, inputName)` and `load(filePath)` (validation_policy_config.py:70-82). -/
def loadText (E : Env A C) (files : Files) (depth : Nat) (input : Str) (s : State A) : State A × Except LoadErr Unit :=
  match BoostInfo.read files depth input (Tree.empty none) with
  | .error e => (s, .error (.other e))
  | .ok t => load E t s

end PyNDN.ValidatorConfig
