import Verif.Spec.Validator
/-
Specification of the name policies of the validator.
-/
namespace PyNDN.Spec.Validator
open PyNDN PyNDN.Validator

/-- The name that a policy looks at: that of a Data packet, or that of an Interest without its
SignatureInfo and SignatureValue components. -/
def subject : Packet → Name
  | .data d => d.data.name
  | .interest i _ => i.name.take (i.name.length - 2)

/-- The packet's key locator is a name. -/
def KeyLocatorIs : Packet → Name → Prop
  | .data d, kl => ∃ l, d.data.signature.info.keyLocator? = some l ∧ l.type = some 1 ∧ l.keyName = kl
  | .interest i _, kl => ∃ sig l, interestSignature i.name = .ok sig ∧ sig.info.keyLocator? = some l ∧
      l.type = some 1 ∧ l.keyName = kl

/-- A name is a prefix of another, as `Name.match` sees it: the types of components do not count. -/
def Under (a b : Name) : Prop := a.map Component.value <+: b.map Component.value

def Related : Relation → Name → Name → Prop
  | .equal, a, b => a = b
  | .isPrefixOf, a, b => Under a b
  | .isStrictPrefixOf, a, b => Under a b ∧ a.length < b.length

/-- A filter of a rule selects a name. -/
def Selects : Filter → Name → Prop
  | .relation a r, n => Related r a n
  | .regex f, n => f n = true

/-- A rule without filters applies to all names, another to those that one of its filters selects. -/
def Applies (r : Rule) (n : Name) : Prop := r.filters = [] ∨ ∃ f ∈ r.filters, Selects f n

/-- A checker of a rule passes: the identity in the key name `/<identity>/KEY/<id>` is in a relation
with a given name, the key locator name matches a regular expression, or names that are made from the
two names are in a relation. -/
def Passes : Checker → Name → Name → Prop
  | .relation a r, _, kl => ∃ identity kid, kl = identity ++ [keyComponent, kid] ∧ identity ≠ [] ∧
      Related r a identity
  | .regex f, _, kl => f kl = true
  | .hyper p k r, n, kl => ∃ a b, p n = some a ∧ k kl = some b ∧ Related r b a

/-- The first rule that applies to the name has checkers, and all of them pass. -/
def Accepts (rules : List Rule) (n kl : Name) : Prop :=
  ∃ before r after, rules = before ++ r :: after ∧ (∀ q ∈ before, ¬ Applies q n) ∧ Applies r n ∧
    r.checkers ≠ [] ∧ ∀ c ∈ r.checkers, Passes c n kl

/-- The name of a certificate is `/<identity>/KEY/<key-id>/<issuer-id>/<version>`. -/
def identityOf (c : SData) : Name := c.data.name.take (c.data.name.length - 4)

/-- The packet's key locator has the form `/<identity>/<k>/<id>` where `k` has "KEY" in its URI form, it
names the certificate, and `identity` is a prefix of the packet's name. -/
def Hierarchical (p : Packet) (c : SData) : Prop :=
  ∃ identity k kid, KeyLocatorIs p (identity ++ [k, kid]) ∧ isKeyLike k = true ∧
    NamedBy (identity ++ [k, kid]) c ∧ Under identity (subject p)

/-- The packet's key locator names the certificate, and without its last two components it is a prefix
of the packet's name. -/
def Simple (p : Packet) (c : SData) : Prop :=
  ∃ kl, KeyLocatorIs p kl ∧ NamedBy kl c ∧ Under (kl.take (kl.length - 2)) p.name

/-- A certificate at the end of a chain of `Link`s from one that the application declared trusted. -/
inductive Rooted (V : Cfg) (trace : List Ev) (Link : Packet → SData → Prop) : SData → Prop
  | given (c) (h : Ev.trusted c ∈ trace) : Rooted V trace Link c
  | issued (c issuer) (h : Rooted V trace Link issuer) (hs : SignedBy V.verify (.data c) issuer)
      (ha : Link (.data c) issuer) : Rooted V trace Link c

end PyNDN.Spec.Validator
