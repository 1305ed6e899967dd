import Verif.Model.ConfigPolicy
import Verif.Spec.ValidatorConfig
/-
Specification of the verification by a `ConfigPolicyManager`: which packets its configuration lets which certificates sign, and which
certificates it gives reason to trust.  The configuration is a list of entries (Spec/BoostInfo).  From the model come the parameters
`Env`, the types, and the URI syntax of names.
-/
namespace PyNDN.Spec.ConfigPolicy
open _root_.PyNDN
open _root_.PyNDN.Validator (SData SData.name Packet Relation)
open _root_.PyNDN.BoostInfo (Str)
open _root_.PyNDN.ConfigPolicy (Env Ev)
open _root_.PyNDN.Spec.BoostInfo (Item select)
open _root_.PyNDN.Spec.ValidatorConfig (sections Has Lacks)
open _root_.PyNDN.Spec.Validator (Related Under KeyLocatorIs signatureOf)

/-- The rules of a configuration, in its order. -/
def rules (items : List Item) : List Item := select ["validator".toList, "rule".toList] items

/-- The trust anchors of a configuration. -/
def trustAnchors (items : List Item) : List Item := select ["validator".toList, "trust-anchor".toList] items

/-- The words for relations between names, in small letters. -/
inductive RelationWord : Str → Relation → Prop
  | equal : RelationWord "equal".toList .equal
  | isPrefixOf : RelationWord "is-prefix-of".toList .isPrefixOf
  | isStrictPrefixOf : RelationWord "is-strict-prefix-of".toList .isStrictPrefixOf

/-- The name that the rules look at: that of a Data packet, or that of an Interest without the four components of a command. -/
def subject : Packet → Name
  | .data d => d.data.name
  | .interest i _ => i.name.take (i.name.length - 4)

/-- What a rule must be for. -/
def kind : Packet → Str
  | .data _ => "data".toList
  | .interest _ _ => "interest".toList

/-- A name from an entry; without a value it is the empty name. -/
def NameIs (i : Item) (n : Name) : Prop := (∃ uri, Has i "name" uri ∧ parseUri uri = .ok n) ∨ (Lacks i "name" ∧ n = [])

/-- A filter section selects a name: its regular expression matches it or, if it has none, its name is in its relation to it. -/
inductive Selects (E : Env) (i : Item) (n : Name) : Prop
  | regex {x} : Has i "regex" x → E.regex x n = .ok true → Selects E i n
  | relation {rel r a} : Lacks i "regex" → Has i "relation" rel → RelationWord rel r → NameIs i a → Related r a n → Selects E i n

/-- A rule applies to a packet: it is for this kind of packet, and all its filters select the name. -/
def Applies (E : Env) (i : Item) (p : Packet) : Prop := Has i "for" (kind p) ∧ ∀ f ∈ sections "filter" i.children, Selects E f (subject p)

/-- A certificate given in a configuration: the content of a file at some time, or base64 text. -/
def Given (E : Env) (v : Str) (c : SData) : Prop := (∃ t, E.file t v = .ok c) ∨ E.base64 v = .ok c

/-- A section (a trust anchor or a signer) that gives a certificate by a file or as base64 text. -/
inductive Names (i : Item) (v : Str) : Prop
  | file : Has i "type" "file".toList → Has i "file-name" v → Names i v
  | base64 : Has i "type" "base64".toList → Has i "base64-string" v → Names i v

/-- The first section with a key. -/
def First (i : Item) (key : String) (j : Item) : Prop := ∃ rest, sections key i.children = j :: rest

/-- A key locator name is the name of a certificate that differs from the name of the given one at most in its version (for v2
certificates: that starts with the same components). -/
def SameSigner (E : Env) (kl : Name) (c : SData) : Prop :=
  if E.isSecurityV1 then Name.toUri kl.dropLast = Name.toUri c.name.dropLast else Under c.name.dropLast kl

/-- A checker section lets a packet with the name `n` be signed with the key locator name `kl`. -/
inductive Checks (E : Env) (i : Item) (n kl : Name) : Prop
  /-- A fixed signer. -/
  | fixed {s v c} : Has i "type" "fixed-signer".toList → First i "signer" s → Names s v → Given E v c → SameSigner E kl c →
      Checks E i n kl
  /-- The identity in a v1 certificate name is a prefix of the name. -/
  | identity {a b} : Has i "type" "hierarchical".toList →
      E.expand "^([^<KEY>]*)<KEY>(<>*)<ksk-.+><ID-CERT>".toList "\\1".toList kl = .ok (some a) →
      E.expand "^([^<KEY>]*)<KEY>(<>*)<ksk-.+><ID-CERT>".toList "\\2".toList kl = .ok (some b) → Under (a ++ b) n → Checks E i n kl
  /-- The identity in a v2 key name is a prefix of the name. -/
  | identity2 {a} : Has i "type" "hierarchical".toList → E.isSecurityV1 = false →
      E.expand "^([^<KEY>]*)<KEY>(<>*)<ksk-.+><ID-CERT>".toList "\\1".toList kl = .ok none →
      E.expand "^(<>*)<KEY><>$".toList "\\1".toList kl = .ok (some a) → Under a n → Checks E i n kl
  /-- The key locator name is in a relation to a given name. -/
  | relation {k rel r a} : Has i "type" "customized".toList → First i "key-locator" k → Has k "relation" rel → RelationWord rel r →
      NameIs k a → Related r a kl → Checks E i n kl
  /-- The key locator name matches a regular expression. -/
  | regex {k x} : Has i "type" "customized".toList → First i "key-locator" k → Lacks k "relation" → Has k "regex" x →
      E.regex x kl = .ok true → Checks E i n kl
  /-- Names made from the two names are in a relation. -/
  | hyper {k h kr ke pr pe rel r a b} : Has i "type" "customized".toList → First i "key-locator" k → Lacks k "relation" →
      Lacks k "regex" → First k "hyper-relation" h → Has h "k-regex" kr → Has h "k-expand" ke → Has h "p-regex" pr →
      Has h "p-expand" pe → Has h "h-relation" rel → RelationWord rel r → E.expand kr ke kl = .ok (some a) →
      E.expand pr pe n = .ok (some b) → Related r a b → Checks E i n kl

/-- The configuration lets the packet be signed with the key locator name: the first rule that applies to the packet has a checker,
and its first checker accepts. -/
def Allows (E : Env) (items : List Item) (p : Packet) (kl : Name) : Prop :=
  ∃ before r after k, rules items = before ++ r :: after ∧ (∀ q ∈ before, ¬ Applies E q p) ∧ Applies E r p ∧
    First r "checker" k ∧ Checks E k (subject p) kl

/-- The key locator name leads to the certificate: it is the name of a v1 certificate without the version, or a prefix of the name of
a v2 certificate. -/
def LeadsTo (E : Env) (kl : Name) (c : SData) : Prop :=
  if E.isSecurityV1 then Name.toUri c.name.dropLast = Name.toUri kl else Under kl c.name

/-- The public key of a certificate. -/
def KeyIs (E : Env) (c : SData) (key : Bytes) : Prop :=
  if E.isSecurityV1 then E.v1Key c = .ok (some key) else c.data.content = some key ∧ key ≠ []

/-- The signature of the packet verifies with the key of the certificate. -/
def SignedBy (E : Env) (p : Packet) (c : SData) : Prop :=
  ∃ signed sig key, signatureOf p = some (signed, sig) ∧ KeyIs E c key ∧ E.verify signed sig key = .ok true

/-- The packet is signed by the certificate as the configuration allows. -/
def Issued (E : Env) (items : List Item) (p : Packet) (c : SData) : Prop :=
  ∃ kl, KeyLocatorIs p kl ∧ kl ≠ [] ∧ Allows E items p kl ∧ LeadsTo E kl c ∧ SignedBy E p c

/-- A certificate that is given in the configuration: a trust anchor, a certificate of a trust anchor directory, or a fixed signer. -/
inductive Configured (E : Env) (items : List Item) (c : SData) : Prop
  | anchor {i v} : i ∈ trustAnchors items → Names i v → Given E v c → Configured E items c
  | dir {i d t cs} : i ∈ trustAnchors items → Has i "type" "dir".toList → Has i "dir" d → E.dir t d = .ok cs → c ∈ cs →
      Configured E items c
  | signer {r k s v} : r ∈ rules items → First r "checker" k → Has k "type" "fixed-signer".toList → First k "signer" s → Names s v →
      Given E v c → Configured E items c

/-- A certificate in which the configuration gives reason to trust: it is given there, the application has put it into its cache, or
it is signed by such a certificate as the configuration allows. -/
inductive Trusted (E : Env) (items : List Item) (trace : List Ev) : SData → Prop
  | configured {c} : Configured E items c → Trusted E items trace c
  | inserted {c} : Ev.inserted c ∈ trace → Trusted E items trace c
  | issued {c issuer} : Trusted E items trace issuer → Issued E items (.data c) issuer → Trusted E items trace c

/-- The packet is signed by a trusted certificate as the configuration allows. -/
def Justified (E : Env) (items : List Item) (trace : List Ev) (p : Packet) : Prop :=
  ∃ c, Trusted E items trace c ∧ Issued E items p c

/-! ### Ends of calls and timestamps -/

/-- The event ends the call: a callback, an exception, or silence. -/
def isEnd (id : Nat) : Ev → Bool
  | .verified i _ => i == id
  | .failed i _ => i == id
  | .raised i _ => i == id
  | .dropped i => i == id
  | _ => false

/-- The event is a call of a callback. -/
def isCallback (id : Nat) : Ev → Bool
  | .verified i _ => i == id
  | .failed i _ => i == id
  | _ => false

/-- The event is the expression of an Interest for the call. -/
def isSend (id : Nat) : Ev → Bool
  | .express i _ => i == id
  | _ => false

/-- The key of a command Interest: in security v1 the public key name that its key locator name has in it; else the key locator name.
In both cases as a URI. -/
def CommandKey (E : Env) (p : Packet) (key : Str) : Prop :=
  ∃ kl, KeyLocatorIs p kl ∧
    if E.isSecurityV1 then
      ∃ a b c d, kl = a ++ b :: c ++ d ∧ b.toEscapedString = "KEY".toList ∧ (∀ x ∈ a, x.toEscapedString ≠ "KEY".toList) ∧
        (∃ e es, d = e :: es ∧ e.toEscapedString = "ID-CERT".toList ∧ ∀ x ∈ es, x.toEscapedString ≠ "ID-CERT".toList) ∧
        key = Name.toUri (a ++ c)
    else key = Name.toUri kl

/-- The timestamp of a command Interest. -/
def CommandTime (p : Packet) (t : Nat) : Prop :=
  match p with
  | .data _ => False
  | .interest i _ => ∃ a c b, i.name = a ++ c :: b ∧ b.length = 3 ∧ t = c.toNumber

/-- If both events are verifications of command Interests with the same key, the second one has a later timestamp. -/
def InOrder (E : Env) (a b : Ev) : Prop :=
  ∀ i p j q key t t', a = .verified i p → b = .verified j q → CommandKey E p key → CommandKey E q key → CommandTime p t →
    CommandTime q t' → t < t'

/-- A history in which each callback returns before the next event. -/
def prompt (es : List _root_.PyNDN.ConfigPolicy.Event) : List _root_.PyNDN.ConfigPolicy.Event := es.flatMap fun e => [e, .resume 0]

end PyNDN.Spec.ConfigPolicy
