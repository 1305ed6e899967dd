import Verif.Model.Match
/-
Model of certificates and of the stores of the v2 validator: security/v2/certificate_v2.py,
certificate_cache_v2.py, trust_anchor_container.py, trust_anchor_group.py,
static_trust_anchor_group.py, certificate_storage.py, and validity_period.py.

Times are whole milliseconds (Python floats in the code).
-/
namespace PyNDN.Validator

/-- A `Data` object as the validator reads it: its fields, what `getFullName()` returns, and the
signed portion of what `wireEncode()` returns (`encoding.toSignedBytes()`,
verification_helpers.py:153-156).  Either can raise. -/
structure SData where
  data : Data
  full : Except Err Name := .error .runtime
  signed : Except Err Bytes := .error .runtime
  deriving DecidableEq

def SData.name (c : SData) : Name := c.data.name

/-- `CertificateV2.KEY_COMPONENT` (certificate_v2.py:318): the bytes of "KEY". -/
def keyComponent : Component := Component.generic [0x4b, 0x45, 0x59]

/-- `CertificateV2.isValidName` (certificate_v2.py:265-277). -/
def isValidCertName (n : Name) : Except Err Bool :=
  if n.length ≥ 4 then do return (← pyIndex n (-4)).equals keyComponent
  else .ok false

/-- `CertificateV2._checkFormat` (certificate_v2.py:107-120): raises unless the Data packet has the
format of a certificate.  `CertificateV2.Error` is represented by `value`.  A missing freshness period
is None, and comparing it with 0.0 raises TypeError. -/
def checkFormat (d : SData) : Except Err Unit := do
  if !(← isValidCertName d.data.name) then .error .value
  else if d.data.metaInfo.type ≠ 2 then .error .value
  else if d.data.metaInfo.freshnessPeriod = none then .error .type
  else if blobSize d.data.content = 0 then .error .value
  else return ()

/-- `CertificateV2.getValidityPeriod` (certificate_v2.py:172-185; validity_period.py:145-179):
ValueError unless the signature is an RSA or ECDSA signature. -/
def getValidityPeriod (d : SData) : Except Err ValidityPeriod :=
  match d.data.signature.info with
  | .rsa _ vp => .ok vp
  | .ecdsa _ vp => .ok vp
  | _ => .error .value

/-- `ValidityPeriod.isValid` (validity_period.py:126-142): the current time is rounded up to a whole
second.  An unspecified period goes from 1e37 to -1e37 and contains no time. -/
def periodIsValid (vp : ValidityPeriod) (now : Int) : Bool :=
  match vp with
  | none => false
  | some (notBefore, notAfter) =>
    let time := -((-now) / 1000) * 1000
    decide (notBefore ≤ time ∧ time ≤ notAfter)

/-- `CertificateV2.isValid` (certificate_v2.py:187-200). -/
def isValid (d : SData) (now : Int) : Except Err Bool := do
  return periodIsValid (← getValidityPeriod d) now

/-- The loop of `find(interest)` over the names from the first one not less than the Interest name
(certificate_cache_v2.py:147-158; trust_anchor_container.py:161-172). -/
def findLoop (i : Interest) : List SData → Except Err (Option SData)
  | [] => .ok none
  | c :: cs =>
    if !i.name.matches c.name then .ok none
    else do
      if ← i.matchesData c.name c.full c.data.signature.info then return some c
      else findLoop i cs

/-- `find(interest)` in a sorted list of names: `bisect_left`, then the loop. -/
def findSorted (i : Interest) (l : List SData) : Except Err (Option SData) :=
  findLoop i (l.dropWhile fun c => c.name.compare i.name < 0)

/-! ### The certificate cache -/

/-- `CertificateCacheV2._Entry` (certificate_cache_v2.py:209-220), with its key. -/
structure Entry where
  cert : SData
  removal : Int
  deriving DecidableEq

/-- `CertificateCacheV2` (certificate_cache_v2.py:44-56).  The dictionary and the sorted list of its
keys are one sorted list.  `nextRefresh = none` is `sys.float_info.max`. -/
structure Cache where
  entries : List Entry := []
  nextRefresh : Option Int := none
  maxLifetime : Int
  deriving DecidableEq

/-- `bisect.insort` and the new dictionary entry (certificate_cache_v2.py:92-97). -/
def insertEntry (e : Entry) : List Entry → List Entry
  | [] => [e]
  | x :: xs => if e.cert.name.compare x.cert.name < 0 then e :: x :: xs else x :: insertEntry e xs

/-- `CertificateCacheV2.insert` (certificate_cache_v2.py:58-97).  A certificate without a validity
period object raises, and so does copying a Data packet that is not a certificate. -/
def Cache.insert (c : Cache) (now : Int) (cert : SData) : Except Err Cache := do
  match ← getValidityPeriod cert with
  | none => return c
  | some (_, notAfter) =>
    if notAfter < now then return c
    else
      checkFormat cert
      let removal := min notAfter (now + c.maxLifetime)
      let next := match c.nextRefresh with
        | none => some removal
        | some t => if removal < t then some removal else some t
      let entries :=
        if c.entries.any (fun e => e.cert.name.equals cert.name) then
          c.entries.map fun e => if e.cert.name.equals cert.name then ⟨cert, removal⟩ else e
        else insertEntry ⟨cert, removal⟩ c.entries
      return { c with entries := entries, nextRefresh := next }

/-- `CertificateCacheV2._refresh` (certificate_cache_v2.py:222-246). -/
def Cache.refresh (c : Cache) (now : Int) : Cache :=
  match c.nextRefresh with
  | none => c
  | some t =>
    if now < t then c
    else
      let kept := c.entries.filter fun e => !decide (e.removal ≤ now)
      { c with
        entries := kept
        nextRefresh := kept.foldr (fun e r => match r with
          | none => some e.removal
          | some t => some (min t e.removal)) none }

/-- `CertificateCacheV2.find` with an Interest (certificate_cache_v2.py:128-158). -/
def Cache.find (c : Cache) (now : Int) (i : Interest) : Cache × Except Err (Option SData) :=
  let c := c.refresh now
  (c, findSorted i (c.entries.map Entry.cert))

/-- `CertificateCacheV2.deleteCertificate` (certificate_cache_v2.py:160-180). -/
def Cache.delete (c : Cache) (name : Name) : Cache :=
  { c with entries := c.entries.filter fun e => !e.cert.name.equals name }

/-- `CertificateCacheV2.clear` (certificate_cache_v2.py:182-188). -/
def Cache.clear (c : Cache) : Cache := { c with entries := [], nextRefresh := none }

/-! ### Trust anchors -/

/-- `bisect.insort` for `_AnchorContainer.add` (trust_anchor_container.py:223-226). -/
def insertAnchor (c : SData) : List SData → List SData
  | [] => [c]
  | x :: xs => if c.name.compare x.name < 0 then c :: x :: xs else x :: insertAnchor c xs

/-- `_AnchorContainer.add` (trust_anchor_container.py:208-226): replaces a certificate with the same
name. -/
def addAnchor (c : SData) (l : List SData) : List SData :=
  if l.any (fun x => x.name.equals c.name) then l.map fun x => if x.name.equals c.name then c else x
  else insertAnchor c l

/-- `_AnchorContainer.remove` (trust_anchor_container.py:228-242). -/
def removeAnchor (name : Name) (l : List SData) : List SData := l.filter fun x => !x.name.equals name

/-- `CertificateStorage` (certificate_storage.py:29-33) and the names in the static anchor groups
(trust_anchor_container.py:52-55, trust_anchor_group.py:38-42). -/
structure Stores where
  anchors : List SData := []
  groups : List (String × List Name) := []
  verified : Cache := { maxLifetime := 3600000 }
  unverified : Cache := { maxLifetime := 300000 }
  deriving DecidableEq

/-- The names in a group. -/
def groupNames (groups : List (String × List Name)) (g : String) : List Name :=
  ((groups.find? fun x => x.1 == g).map Prod.snd).getD []

/-- Replace the names of a group, or make the group. -/
def setGroup (groups : List (String × List Name)) (g : String) (names : List Name) :
    List (String × List Name) :=
  (g, names) :: groups.filter fun x => x.1 != g

/-- `loadAnchor(groupId, certificate)`: `TrustAnchorContainer.insert` and
`StaticTrustAnchorGroup.add` (trust_anchor_container.py:90-104; static_trust_anchor_group.py:39-53): a
certificate whose name is already in the group is ignored.  If copying the certificate raises because
of its format (trust_anchor_container.py:215), its name has already been added to the group. -/
def Stores.loadAnchor (s : Stores) (g : String) (c : SData) : Stores :=
  let names := groupNames s.groups g
  if names.any (fun n => n.equals c.name) then s
  else
    { s with
      anchors := match checkFormat c with
        | .ok () => addAnchor c s.anchors
        | .error _ => s.anchors
      groups := setGroup s.groups g (c.name :: names) }

/-- `getGroup(groupId).remove(name)` (static_trust_anchor_group.py:55-66). -/
def Stores.removeAnchor (s : Stores) (g : String) (name : Name) : Stores :=
  { s with
    anchors := Validator.removeAnchor name s.anchors
    groups := setGroup s.groups g ((groupNames s.groups g).filter fun n => !n.equals name) }

/-- `resetAnchors` (certificate_storage.py:123-127; trust_anchor_container.py:116-121). -/
def Stores.resetAnchors (s : Stores) : Stores := { s with anchors := [], groups := [] }

/-- `CertificateStorage.findTrustedCertificate` (certificate_storage.py:35-49;
trust_anchor_container.py:151-172). -/
def Stores.findTrusted (s : Stores) (now : Int) (i : Interest) : Stores × Except Err (Option SData) :=
  match findSorted i s.anchors with
  | .error e => (s, .error e)
  | .ok (some c) => (s, .ok (some c))
  | .ok none =>
    let (v, r) := s.verified.find now i
    ({ s with verified := v }, r)

end PyNDN.Validator
