import Verif.Model.Packet
import Verif.Spec.Name
/-
Specification of the NDN packets: for each structure the list of TLV fields that the packet format
puts on the wire, which values are well formed, and when two structures carry the same information.
Only the data types come from the model.
-/
namespace PyNDN.Spec

/-- A whole second in the years 1000-9999 (in milliseconds since 1970). -/
def WholeSecond (ms : Int) : Prop := ms % 1000 = 0 ∧ -30610224000000 ≤ ms ∧ ms < 253402300800000

/-! ### Key locators -/

/-- KEYNAME is 1 and KEY_LOCATOR_DIGEST is 2. -/
def keyLocatorFields (kl : KeyLocator) : List (Nat × List UInt8) :=
  if kl.type = some 1 then [(7, flat (nameFields kl.keyName))]
  else if kl.type = some 2 then [(29, kl.keyData.getD [])]
  else []

/-- A key locator that can be encoded: none, a key name, or a non-empty key digest. -/
def KeyLocatorOk (kl : KeyLocator) : Prop :=
  kl.type = none ∨ (kl.type = some 1 ∧ CanonicalName kl.keyName) ∨
  (kl.type = some 2 ∧ ∃ d, kl.keyData = some d ∧ d ≠ [])

/-- Same type, and same key name or digest as far as the type uses it. -/
def SameKeyLocator (a b : KeyLocator) : Prop :=
  a.type = b.type ∧ (a.type = some 1 → a.keyName = b.keyName) ∧
  (a.type = some 2 → a.keyData = b.keyData)

/-! ### Meta info -/

/-- BLOB (0) is not written; OTHER_CODE (0x7fff) writes the other type code. -/
def contentTypeCode (mi : MetaInfo) : Option Nat :=
  if mi.type = 0 then none
  else if mi.type = 0x7fff then some mi.otherTypeCode.toNat
  else some mi.type

def metaInfoFields (mi : MetaInfo) : List (Nat × List UInt8) :=
  opt 24 ((contentTypeCode mi).map nonNeg) ++ opt 25 (mi.freshnessPeriod.map nonNeg) ++
  opt 26 (if mi.finalBlockId.value = [] then none else some (flat [key mi.finalBlockId]))

/-- The content type is a known one, or OTHER_CODE with a code that has no name of its own; the
freshness period is exactly represented by a float; a final block id with an empty value means none. -/
def MetaInfoOk (mi : MetaInfo) : Prop :=
  (mi.type ≤ 3 ∨ (mi.type = 0x7fff ∧ 4 ≤ mi.otherTypeCode ∧ mi.otherTypeCode < 2 ^ 64)) ∧
  (∀ f, mi.freshnessPeriod = some f → f ≤ 2 ^ 53) ∧
  Canonical mi.finalBlockId ∧ (mi.finalBlockId.value = [] → mi.finalBlockId = ⟨.generic, []⟩)

/-- The other type code matters only for OTHER_CODE. -/
def SameMetaInfo (a b : MetaInfo) : Prop :=
  a.type = b.type ∧ (a.type = 0x7fff → a.otherTypeCode = b.otherTypeCode) ∧
  a.freshnessPeriod = b.freshnessPeriod ∧ a.finalBlockId = b.finalBlockId

/-! ### Signature info -/

def ValidityOk (vp : ValidityPeriod) : Prop :=
  ∀ nb na, vp = some (nb, na) → WholeSecond nb ∧ WholeSecond na

/-- A signature that can be encoded.  The encoding of a GenericSignature is a SignatureInfo TLV that
starts with the type code, which is not one of the types that the library knows. -/
def SigInfoOk : SigInfo → Prop
  | .rsa kl vp => KeyLocatorOk kl ∧ ValidityOk vp
  | .ecdsa kl vp => KeyLocatorOk kl ∧ ValidityOk vp
  | .hmac kl => KeyLocatorOk kl
  | .digest => True
  | .generic enc code => ∃ t rest, code = some t ∧ t < 2 ^ 64 ∧ t ≠ 0 ∧ t ≠ 1 ∧ t ≠ 3 ∧ t ≠ 4 ∧
      (∀ p ∈ rest, p.1 < 2 ^ 64) ∧ (flat ((27, nonNeg t) :: rest)).length < 2 ^ 64 ∧
      enc = some (tlv 22 (flat ((27, nonNeg t) :: rest)))

def SameSigInfo : SigInfo → SigInfo → Prop
  | .rsa a va, .rsa b vb => SameKeyLocator a b ∧ va = vb
  | .ecdsa a va, .ecdsa b vb => SameKeyLocator a b ∧ va = vb
  | .hmac a, .hmac b => SameKeyLocator a b
  | .digest, .digest => True
  | .generic ea ca, .generic eb cb => ea = eb ∧ ca = cb
  | _, _ => False

/-! ### Data -/

def DataOk (d : Data) : Prop :=
  CanonicalName d.name ∧ MetaInfoOk d.metaInfo ∧ SigInfoOk d.signature.info

/-- Same name, meta info, content, signature info and signature value.  A null content or signature
value is the same as an empty one. -/
def SameData (a b : Data) : Prop :=
  a.name = b.name ∧ SameMetaInfo a.metaInfo b.metaInfo ∧ a.content.getD [] = b.content.getD [] ∧
  SameSigInfo a.signature.info b.signature.info ∧
  a.signature.signature.getD [] = b.signature.signature.getD []

/-! ### Delegation sets -/

/-- Each entry is a Delegation TLV (31) holding the Preference (30) and the Name. -/
def delegationFields (ds : DelegationSet) : List (Nat × List UInt8) :=
  ds.map fun d => (31, flat [(30, nonNeg d.preference.toNat), (7, flat (nameFields d.name))])

def DelegationsOk (ds : DelegationSet) : Prop :=
  ∀ d ∈ ds, 0 ≤ d.preference ∧ d.preference < 2 ^ 64 ∧ CanonicalName d.name

/-- The order of delegations: by preference, then by name. -/
def delegationLt (a b : Delegation) : Prop :=
  a.preference < b.preference ∨ (a.preference = b.preference ∧ nameLt a.name b.name)

/-- A call on a delegation set. -/
inductive DelegationOp where
  | add (preference : Int) (name : Name)
  | remove (name : Name)
  | clear

/-- The preference that a sequence of calls (latest first) leaves for a name: that of the latest call
concerning the name. -/
def preferenceAfter (name : Name) : List DelegationOp → Option Int
  | [] => none
  | .add p n :: earlier => if n = name then some p else preferenceAfter name earlier
  | .remove n :: earlier => if n = name then none else preferenceAfter name earlier
  | .clear :: _ => none

/-! ### Interests -/

/-- ANY is an empty TLV of type 19; other entries are name components. -/
def excludeFields (ex : Exclude) : List (Nat × List UInt8) :=
  ex.map fun e => match e with | none => (19, []) | some c => key c

/-- A component of type 19 would be taken for ANY. -/
def ExcludeOk (ex : Exclude) : Prop := ∀ c, some c ∈ ex → Canonical c ∧ c.type.code ≠ 19

def selectorFields (i : Interest) : List (Nat × List UInt8) :=
  opt 13 (i.minSuffix.map nonNeg) ++ opt 14 (i.maxSuffix.map nonNeg) ++
  opt 15 (if i.keyLocator.type = none then none else some (flat (keyLocatorFields i.keyLocator))) ++
  opt 16 (if i.exclude = [] then none else some (flat (excludeFields i.exclude))) ++
  opt 17 (i.childSelector.map nonNeg) ++ opt 18 (if i.mustBeFresh then some [] else none)

/-- The NDN packet format v0.2: Name, Selectors, Nonce, InterestLifetime, Link, SelectedDelegation,
ForwardingHint.  `link` is the value inside the Link TLV. -/
def interestV02Fields (i : Interest) (nonce : List UInt8) (link : Option (List UInt8)) :
    List (Nat × List UInt8) :=
  [(7, flat (nameFields i.name))] ++
  opt 9 (if selectorFields i = [] then none else some (flat (selectorFields i))) ++
  [(10, nonce)] ++ opt 12 (i.lifetime.map nonNeg) ++ opt 6 link ++
  opt 32 (i.selectedDelegation.map nonNeg) ++
  opt 30 (if i.forwardingHint = [] then none else some (flat (delegationFields i.forwardingHint)))

/-- The NDN packet format v0.3: Name, CanBePrefix, MustBeFresh, ForwardingHint, Nonce,
InterestLifetime, ApplicationParameters. -/
def interestV03Fields (i : Interest) (nonce : List UInt8) : List (Nat × List UInt8) :=
  [(7, flat (nameFields i.name))] ++ opt 33 (if i.canBePrefix then some [] else none) ++
  opt 18 (if i.mustBeFresh then some [] else none) ++
  opt 30 (if i.forwardingHint = [] then none else some (flat (delegationFields i.forwardingHint))) ++
  [(10, nonce)] ++ opt 12 (i.lifetime.map nonNeg) ++ opt 36 i.applicationParameters

/-- The four nonce bytes of the packet: the Interest's nonce cut to four bytes, or completed with
other (random) bytes. -/
def NonceFor (own : Option (List UInt8)) (sent : List UInt8) : Prop :=
  sent.length = 4 ∧ (own.getD []).take 4 <+: sent

/-- Values that the packet format can represent: numbers below 2^64, a lifetime exactly represented
by a float, an encodable key locator, exclude entries and forwarding hint; a forwarding hint and a link
are not used together; a link is the encoding of a Data packet (type 6), and a selected delegation
comes with a link. -/
structure InterestOk (i : Interest) : Prop where
  name : CanonicalName i.name
  minSuffix : ∀ n, i.minSuffix = some n → n < 2 ^ 64
  maxSuffix : ∀ n, i.maxSuffix = some n → n < 2 ^ 64
  keyLocator : KeyLocatorOk i.keyLocator
  exclude : ExcludeOk i.exclude
  childSelector : ∀ n, i.childSelector = some n → n < 2 ^ 64
  lifetime : ∀ n, i.lifetime = some n → n ≤ 2 ^ 53
  forwardingHint : DelegationsOk i.forwardingHint
  link : ∀ b, i.link = some b → ∃ v, b = tlv 6 v
  selectedDelegation : ∀ n, i.selectedDelegation = some n → n < 2 ^ 64 ∧ i.link ≠ none
  exclusive : i.forwardingHint ≠ [] → i.link = none

/-- Everything but the nonce and the application parameters is the same. -/
structure SameSelectors (a b : Interest) : Prop where
  name : a.name = b.name
  minSuffix : a.minSuffix = b.minSuffix
  maxSuffix : a.maxSuffix = b.maxSuffix
  keyLocator : SameKeyLocator a.keyLocator b.keyLocator
  exclude : a.exclude = b.exclude
  childSelector : a.childSelector = b.childSelector
  mustBeFresh : a.mustBeFresh = b.mustBeFresh
  lifetime : a.lifetime = b.lifetime
  link : a.link = b.link
  selectedDelegation : a.selectedDelegation = b.selectedDelegation

/-! ### Text -/

/-- A Unicode code point other than a surrogate. -/
def Scalar (c : Nat) : Prop := c < 0xd800 ∨ (0xe000 ≤ c ∧ c < 0x110000)

/-- The UTF-8 encoding of a code point. -/
def utf8 (c : Nat) : List UInt8 :=
  if c < 0x80 then [UInt8.ofNat c]
  else if c < 0x800 then [UInt8.ofNat (0xc0 + c / 64), UInt8.ofNat (0x80 + c % 64)]
  else if c < 0x10000 then
    [UInt8.ofNat (0xe0 + c / 4096), UInt8.ofNat (0x80 + c / 64 % 64), UInt8.ofNat (0x80 + c % 64)]
  else [UInt8.ofNat (0xf0 + c / 262144), UInt8.ofNat (0x80 + c / 4096 % 64),
        UInt8.ofNat (0x80 + c / 64 % 64), UInt8.ofNat (0x80 + c % 64)]

/-- The UTF-8 encoding of some string. -/
def IsText (b : List UInt8) : Prop := ∃ s : List Nat, (∀ c ∈ s, Scalar c) ∧ b = s.flatMap utf8

/-! ### Control parameters and responses -/

def flagBits (f : RegFlags) : Nat := (if f.childInherit then 1 else 0) + (if f.capture then 2 else 0)

/-- The fields in the order of the NFD management protocol.  ChildInherit alone is the default and is
not written. -/
def controlParametersFields (cp : ControlParameters) : List (Nat × List UInt8) :=
  let num (x : Option Int) := x.map fun n => nonNeg n.toNat
  opt 7 (cp.name.map fun n => flat (nameFields n)) ++ opt 105 (num cp.faceId) ++
  opt 114 (if cp.uri = [] then none else some cp.uri) ++ opt 110 (num cp.localControlFeature) ++
  opt 111 (num cp.origin) ++ opt 106 (num cp.cost) ++
  opt 108 (if flagBits cp.flags = 1 then none else some (nonNeg (flagBits cp.flags))) ++
  opt 107 (if cp.strategy = [] then none else some (flat [(7, flat (nameFields cp.strategy))])) ++
  opt 109 (num cp.expirationPeriod)

structure ControlParametersOk (cp : ControlParameters) : Prop where
  name : ∀ n, cp.name = some n → CanonicalName n
  strategy : CanonicalName cp.strategy
  uri : IsText cp.uri
  faceId : ∀ n, cp.faceId = some n → 0 ≤ n ∧ n < 2 ^ 64
  localControlFeature : ∀ n, cp.localControlFeature = some n → 0 ≤ n ∧ n < 2 ^ 64
  origin : ∀ n, cp.origin = some n → 0 ≤ n ∧ n < 2 ^ 64
  cost : ∀ n, cp.cost = some n → 0 ≤ n ∧ n < 2 ^ 64
  expirationPeriod : ∀ n, cp.expirationPeriod = some n → 0 ≤ n ∧ n ≤ 2 ^ 53

def controlResponseFields (code : Nat) (cr : ControlResponse) : List (Nat × List UInt8) :=
  [(102, nonNeg code), (103, cr.statusText)] ++
  opt 104 (cr.body.map fun cp => flat (controlParametersFields cp))

structure ControlResponseOk (cr : ControlResponse) : Prop where
  statusCode : ∃ c : Nat, cr.statusCode = some (c : Int) ∧ c < 2 ^ 64
  statusText : IsText cr.statusText
  body : ∀ cp, cr.body = some cp → ControlParametersOk cp

/-! ### Link-layer packets -/

/-- The code that stands for a Nack reason; `none` for a reason that does not exist. -/
def nackCode (n : NetworkNack) : Option Nat :=
  if n.reason = 0 ∨ n.reason = 50 ∨ n.reason = 100 ∨ n.reason = 150 then some n.reason
  else if n.reason = 0x7fff ∧ 0 ≤ n.otherReasonCode then some n.otherReasonCode.toNat
  else none

/-- A Nack whose reason code can be sent: OTHER_CODE is used with a code that has no name of its own. -/
def NackOk (n : NetworkNack) : Prop :=
  n.reason = 0 ∨ n.reason = 50 ∨ n.reason = 100 ∨ n.reason = 150 ∨
  (n.reason = 0x7fff ∧ 0 ≤ n.otherReasonCode ∧ n.otherReasonCode < 2 ^ 64 ∧ n.otherReasonCode ≠ 0 ∧
   n.otherReasonCode ≠ 50 ∧ n.otherReasonCode ≠ 100 ∧ n.otherReasonCode ≠ 150)

/-- Unknown header fields that NDNLPv2 allows to ignore. -/
def lpIgnorable (t : Nat) : Prop := 800 ≤ t ∧ t ≤ 959 ∧ t % 4 = 0

/-- A header field of a link-layer packet as a sender may write it. -/
inductive LpField where
  | nack (n : NetworkNack) (extra : List (Nat × List UInt8))
  | incomingFaceId (id : Nat)
  | congestionMark (m : Nat)
  | unknown (t : Nat) (v : List UInt8)

def lpFieldTlv : LpField → Nat × List UInt8
  | .nack n extra => (800, flat ((801, nonNeg ((nackCode n).getD 0)) :: extra))
  | .incomingFaceId id => (817, nonNeg id)
  | .congestionMark m => (832, nonNeg m)
  | .unknown t v => (t, v)

def LpFieldOk : LpField → Prop
  | .nack n extra => NackOk n ∧ ∀ p ∈ extra, p.1 < 2 ^ 64 ∧ ¬ critical p.1
  | .incomingFaceId id => id < 2 ^ 64
  | .congestionMark m => m < 2 ^ 64
  | .unknown t _ => lpIgnorable t ∧ t ≠ 800 ∧ t ≠ 832

/-- What the application gets to see of a header field. -/
def lpHeaderOf : LpField → Option LpHeader
  | .nack n _ => some (.nack ⟨n.reason, if n.reason = 0x7fff then n.otherReasonCode else -1⟩)
  | .incomingFaceId id => some (.incomingFaceId id)
  | .congestionMark m => some (.congestionMark m)
  | .unknown _ _ => none

/-- The bytes from index `b` up to index `e`. -/
def slice (l : List UInt8) (b e : Nat) : List UInt8 := (l.take e).drop b

end PyNDN.Spec
