import Verif.Model.SelfVerify
import Verif.Spec.HmacSign
/-
Specification for C88: when a signature is justified by the keys that are stored.
-/
namespace PyNDN.Spec.SelfVerify
open _root_.PyNDN
open _root_.PyNDN.HmacSign _root_.PyNDN.SelfVerify

/-- The key that a certificate is for, in the convention for names of certificates: `.../KEY/.../ID-CERT/...`; the first KEY that counts
and the last ID-CERT. -/
def IsKeyNameOf (cert k : Name) : Prop :=
  ∃ a kc b ic c, cert = a ++ [kc] ++ b ++ [ic] ++ c ∧ k = a ++ b ∧
    kc.toEscapedString = "KEY".toList ∧ (∀ x ∈ a, x.toEscapedString ≠ "KEY".toList) ∧
    ic.toEscapedString = "ID-CERT".toList ∧ ∀ x ∈ c, x.toEscapedString ≠ "ID-CERT".toList

/-- The stored key that a key locator names: an identity storage has keys by name, a PIB by the name in the key locator. -/
def Names (S : Store) (kl : KeyLocator) (der : Bytes) : Prop :=
  kl.type = some 1 ∧
    match S with
    | .none => False
    | .identity getKey => ∃ k, IsKeyNameOf kl.keyName k ∧ getKey k = .ok (some der)
    | .pib getKeyBits => getKeyBits kl.keyName = .ok (some der)

/-- A signature for a message is justified: it is the digest of the message, or it verifies with the stored key that it names. -/
def Justified (S : Store) (C : Crypto) (sig : Signature) (m : Bytes) : Prop :=
  (sig.info = .digest ∧ sig.signature = some (C.sha256 m)) ∨
    ∃ kl der, ((∃ v, sig.info = .rsa kl v) ∨ ∃ v, sig.info = .ecdsa kl v) ∧ Names S kl der ∧ C.verify m sig.signature der = .ok true

/-- The kinds of signature that the policy knows. -/
def Known (info : SigInfo) : Prop := info = .digest ∨ (∃ kl v, info = .rsa kl v) ∨ ∃ kl v, info = .ecdsa kl v

/-- The storage and the verification answer: a storage of identities raises nothing but SecurityException, a PIB nothing at all. -/
def Answers (S : Store) (C : Crypto) : Prop :=
  (∀ m s der, ∃ b, C.verify m s der = .ok b) ∧
    match S with
    | .none => True
    | .identity getKey => ∀ k e, getKey k = .error e → e = .security
    | .pib getKeyBits => ∀ k e, getKeyBits k ≠ .error e

/-- What is signed with a private key verifies with the public key. -/
def Pair (T : PrivateKeys) (C : Crypto) (k : Name) (der : Bytes) : Prop :=
  ∀ m bits, T.sign m k = .ok bits → bits ≠ [] ∧ C.verify m (some bits) der = .ok true

/-- A message whose signature verifies with the key, though it is not the signed portion of a Data packet that has been signed. -/
def ForgedData (C : Crypto) (der : Bytes) (signed : DataObj → Prop) (bits : Option Bytes) : Prop :=
  ∃ m, C.verify m bits der = .ok true ∧ ∀ o, signed o → ∀ wire b e, encodeData o.data = .ok (wire, b, e) → slice wire b e ≠ m

/-- The same for Interests. -/
def ForgedInterest (C : Crypto) (der : Bytes) (signed : InterestObj → Prop) (bits : Option Bytes) : Prop :=
  ∃ m, C.verify m bits der = .ok true ∧ ∀ o, signed o → ∀ rnd wire b e, encodeInterest o.interest rnd = .ok (wire, b, e) → slice wire b e ≠ m

end PyNDN.Spec.SelfVerify
