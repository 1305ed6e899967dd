import Verif.Model.Nac
import Verif.Spec.Packet
import Verif.Spec.Storage
/-
Specification of name-based access control.  From the model come the data types, the actions and the events.
-/
namespace PyNDN.Spec.Nac
open PyNDN.Nac
open PyNDN.Fetch (Express)

/-! ### The environment -/

/-- The choices of the environment in an action. -/
def envOf : EAct → Option Env
  | .regenerateCk _ _ env => some env
  | .data _ _ env => some env
  | .timeout _ env => some env
  | .nack _ env => some env
  | .fire _ env => some env
  | .interest _ => none
  | .shutdown => none

/-- `expressInterest` does not raise after it has put the Interest on the pending table. -/
def Untabled (env : Env) : Prop := env.express ≠ .raises true

/-- In a history. -/
def UntabledAll (env : Env) (acts : List EAct) : Prop := Untabled env ∧ ∀ a ∈ acts, ∀ e, envOf a = some e → Untabled e

/-- `expressInterest` and the callback of the application do not raise, and the application does not shut down the encryptor. -/
def Calm (env : Env) (acts : List EAct) : Prop :=
  (env.express = .ok ∧ env.errorRaises = false) ∧
  ∀ a ∈ acts, a ≠ .shutdown ∧ ∀ e, envOf a = some e → e.express = .ok ∧ e.errorRaises = false

/-! ### What is seen of an encryptor -/

/-- The Interests for the KEK that were sent since the last KEK, or since the application was last told that there is none. -/
def tries : List EEv → Nat
  | [] => 0
  | e :: earlier => match e with
    | .express _ _ => tries earlier + 1
    | .kek _ => 0
    | .error .encryptionFailure => tries earlier
    | .error _ => 0
    | _ => tries earlier

/-- For a trace in the order of time. -/
def triesOf (trace : List EEv) : Nat := tries trace.reverse

/-- The times at which CKs are made, in a history. -/
def times (now : Nat) (acts : List EAct) : List Nat :=
  now :: acts.filterMap fun a => match a with | .regenerateCk t _ _ => some t | _ => none

/-- The name of a CK: the CK prefix, `CK` and the time in milliseconds as a version. -/
def ckNameAt (P : EncParams) (time : Nat) : Name := P.ckPrefix ++ [ck, ⟨.generic, 0xFD :: nonNeg time⟩]

/-- The CKs and the KEKs of a trace. -/
def cks (trace : List EEv) : List (Name × Bytes) := trace.filterMap fun e => match e with | .ck n b => some (n, b) | _ => none
def keks (trace : List EEv) : List Data := trace.filterMap fun e => match e with | .kek d => some d | _ => none

/-- The packet carries the CK `bits` that is called `name`, encrypted with the KEK `kek`. -/
def IsCkPacket (P : EncParams) (name : Name) (bits : Bytes) (kek d : Data) : Prop :=
  d.name = name ++ [encryptedBy] ++ kek.name ∧
  ∃ random payload, P.rsaEncrypt kek.content bits random = some payload ∧
    d.content = some (tlv 130 (flat [(132, payload)]))

/-- Signing keeps the name and the content; the full name is the name with the digest. -/
structure Signs (P : EncParams) : Prop where
  sign : ∀ r d d', P.sign r d = some d' → d'.name = d.name ∧ d'.content = d.content
  full : ∀ d k, P.fullName d = .ok k → ∃ digest, k = d.name ++ [digest]

/-! ### What is seen of a decryptor -/

/-- The CK for which an Interest was sent: for the CK packet itself, or for the KDK that it needs. -/
def _root_.PyNDN.Nac.Decryptor.Job.ckName : Job → Name
  | .ck n _ _ => n
  | .kdk n _ _ _ _ => n

/-- The choices of the environment in an action. -/
def envOfD : DAct → Option Env
  | .decrypt _ env => some env
  | .data _ _ env => some env
  | .timeout _ env => some env
  | .nack _ => none
  | .shutdown => none

/-- `expressInterest` does not raise after it has put the Interest on the pending table. -/
def UntabledD (acts : List DAct) : Prop := ∀ a ∈ acts, ∀ e, envOfD a = some e → Untabled e

/-- The event calls a callback of the call of `decrypt`. -/
def isAnswer (call : Nat) : DEv → Bool
  | .success c _ => c = call
  | .error c _ => c = call
  | _ => false

/-- How many times a callback of the call was called. -/
def answers (trace : List DEv) (call : Nat) : Nat := trace.countP (isAnswer call)

/-- The name of the CK in an EncryptedContent. -/
def ckOf (content : Encrypt.EncryptedContent) : Name := content.keyLocator.keyName

/-- The content can be decrypted with some CK: it has the name of a CK and an initial vector. -/
def WellFormed (content : Encrypt.EncryptedContent) : Prop := content.keyLocator.type = some 1 ∧ content.initialVector ≠ none

/-- The number of Interests that were sent. -/
def interests (trace : List DEv) : Nat := trace.countP fun e => match e with | .express _ _ => true | _ => false

/-! ### Where a CK comes from -/

/-- The packet came in, with the name of the CK, `ENCRYPTED-BY`, and the name of a KEK. -/
def CkCame (acts : List DAct) (name : Name) (d : Data) (identity : Name) (keyId : Component) : Prop :=
  (∃ id env, .data id d env ∈ acts) ∧ d.name = name ++ [encryptedBy] ++ identity ++ [kek, keyId]

/-- A KDK packet came in; the private key of the credentials decrypts its secret, and the secret opens the private key `p` of the safe
bag in it, which is for the key `key`. -/
def KdkCame (P : DecParams) (acts : List DAct) (key : Name) (p : Nat) : Prop :=
  ∃ id d env wire content bagWire bag secret, .data id d env ∈ acts ∧ d.content = some wire ∧
    Encrypt.decodeEncryptedContentV2 wire = .ok content ∧ content.payload = some bagWire ∧ Encrypt.SafeBag.wireDecode bagWire = .ok bag ∧
    P.credDecrypt env.random content.payloadKey = some (some secret) ∧ P.kc.unwrap bag.privateKeyBag (some secret) = some p ∧
    KeyChain.keyOfCert bag.certificate.name = key

/-- The bits are what the private key of a KDK gives for the payload of a packet for this CK; the KDK is the one that belongs to the KEK. -/
def Source (P : DecParams) (acts : List DAct) (name : Name) (bits : Bytes) : Prop :=
  ∃ d identity keyId wire content p, CkCame acts name d identity keyId ∧ d.content = some wire ∧
    Encrypt.decodeEncryptedContentV2 wire = .ok content ∧ KdkCame P acts (identity ++ [Validator.keyComponent, keyId]) p ∧
    P.rsaDecrypt p (content.payload.getD []) = some bits

end PyNDN.Spec.Nac
