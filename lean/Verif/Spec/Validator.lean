import Verif.Model.Validator
/-
Specification of certificate validation.  Only data types, the cryptographic check and the policy's
decision come from the model.
-/
namespace PyNDN.Spec.Validator
open PyNDN PyNDN.Validator

/-- The public key in a certificate is its content. -/
def publicKey (c : SData) : Option Bytes := c.data.content

/-- The signed bytes and the signature bits of a packet.  A signed Interest has its SignatureInfo and
SignatureValue in the last two name components. -/
def signatureOf : Packet → Option (Bytes × Option Bytes)
  | .data d =>
    match d.signed with
    | .ok b => some (b, d.data.signature.signature)
    | .error _ => none
  | .interest i signed =>
    match signed, interestSignature i.name with
    | .ok b, .ok sig => some (b, sig.signature)
    | _, _ => none

/-- The signature of the packet verifies with the key of the certificate. -/
def SignedBy (verify : Bytes → Option Bytes → Bytes → Except Err Bool) (p : Packet) (c : SData) : Prop :=
  ∃ signed sig key, signatureOf p = some (signed, sig) ∧ publicKey c = some key ∧ key ≠ [] ∧
    verify signed sig key = .ok true

/-- The certificate is named by a key locator name: that is a prefix of its name (as `Name.match` sees
it), or its full name with the implicit digest. -/
def NamedBy (kl : Name) (c : SData) : Prop := kl.matches c.data.name = true ∨ c.full = .ok kl

/-- The policy lets the packet be signed by the certificate: it approves the key locator name of the
packet, and the certificate is named by it. -/
def Allowed (policy : Policy) (p : Packet) (c : SData) : Prop :=
  ∃ kl, policy.check p = .ok (.request kl) ∧ NamedBy kl c

/-- The validity period of the certificate contains the time (rounded up to a whole second). -/
def InPeriod (c : SData) (t : Int) : Prop :=
  ∃ notBefore notAfter, (∃ kl, c.data.signature.info = .rsa kl (some (notBefore, notAfter)) ∨
      c.data.signature.info = .ecdsa kl (some (notBefore, notAfter))) ∧
    ∃ s, notBefore ≤ s ∧ s ≤ notAfter ∧ t ≤ s ∧ s < t + 1000 ∧ 1000 ∣ s

/-- A certificate in which the trace gives reason to trust: the application declared it trusted, or it
was signed by such a certificate, as the policy allows, and was in its validity period at a time when
the validator looked. -/
inductive Trusted (V : Cfg) (trace : List Ev) : SData → Prop
  | given (c) (h : Ev.trusted c ∈ trace) : Trusted V trace c
  | issued (c issuer) (h : Trusted V trace issuer) (hs : SignedBy V.verify (.data c) issuer)
      (ha : Allowed V.policy (.data c) issuer)
      (hv : ∃ t, Ev.clock t ∈ trace ∧ InPeriod c t) : Trusted V trace c

/-- The packet is signed by a trusted certificate as the policy allows. -/
def Justified (V : Cfg) (trace : List Ev) (p : Packet) : Prop :=
  ∃ c, Trusted V trace c ∧ SignedBy V.verify p c ∧ Allowed V.policy p c

/-- `certs` lead from the certificate `root` to the packet: each is signed by the one before it, as the
policy allows, and was in its validity period at a time when the validator looked. -/
def Chain (V : Cfg) (trace : List Ev) (root : SData) : List SData → Packet → Prop
  | [], p => SignedBy V.verify p root ∧ Allowed V.policy p root
  | c :: cs, p => SignedBy V.verify (.data c) root ∧ Allowed V.policy (.data c) root ∧
      (∃ t, Ev.clock t ∈ trace ∧ InPeriod c t) ∧ Chain V trace c cs p

/-- The certificate has not expired. -/
def NotExpired (c : SData) (now : Int) : Prop :=
  ∃ kl notBefore notAfter, (c.data.signature.info = .rsa kl (some (notBefore, notAfter)) ∨
      c.data.signature.info = .ecdsa kl (some (notBefore, notAfter))) ∧ now < notAfter

/-- The event ends the call `id` of `validate`: one of its callbacks is called, or it raises an
exception to its caller, or it returns without ever calling anything. -/
def isEnd (id : Nat) : Ev → Bool
  | .success i => i == id
  | .failure i _ => i == id
  | .raised i _ => i == id
  | .silent i => i == id
  | _ => false

/-- The number of times that the call `id` ends. -/
def ends (id : Nat) (trace : List Ev) : Nat := trace.countP (isEnd id)

/-- The event is a call of a callback of the call `id`. -/
def isCallback (id : Nat) : Ev → Bool
  | .success i => i == id
  | .failure i _ => i == id
  | _ => false

/-- The event is sending an Interest for the call `id`. -/
def isSend (id : Nat) : Ev → Bool
  | .express i _ => i == id
  | _ => false

/-- The number of Interests sent for the call `id`. -/
def sends (id : Nat) (trace : List Ev) : Nat := trace.countP (isSend id)

end PyNDN.Spec.Validator
