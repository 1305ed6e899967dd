import Verif.Spec.Nac
import Verif.Spec.KeyChain
/-
Specification of a system with name-based access control: an access manager, a producer with an encryptor, and a member with a decryptor.
-/
namespace PyNDN.Spec.Nac
open PyNDN.Nac
open PyNDN.Encrypt (EncryptedContent SafeBag)
open PyNDN.PSync (dictGet)
open Spec.KeyChain (Sound Disciplined)

/-- What is assumed of the cryptography: what is encrypted can be decrypted.  `member` is the certificate of the member; the key chain
of the member has the private key of it. -/
structure Crypto (E : EncParams) (D : DecParams) (member : Data) : Prop where
  sound : Sound D.kc
  wrap : ∀ p password, D.kc.unwrap (D.kc.wrap p password) password = some p
  same : D.aes = E.aes
  aes : ∀ key iv plain, plain.length % 16 = 0 → E.aes.decrypt key iv (E.aes.encrypt key iv plain) = some plain
  rsa : ∀ p bits random c, E.rsaEncrypt (some (D.kc.publicKey p)) bits random = some c → D.rsaDecrypt p c = some bits
  credentials : ∀ bits random random' c, E.rsaEncrypt member.content bits random = some c → D.credDecrypt random' (some c) = some (some bits)
  size : ∀ key bits random c, E.rsaEncrypt key bits random = some c → c ≠ [] ∧ c.length < 2 ^ 32

/-- The KEK packet and the KDK packet are those of an access manager for the member: `ops` is what was done with the key chain of the
manager, `certificate` is the certificate of its NAC key. -/
structure Managed (E : EncParams) (D : DecParams) (ops : List KeyChain.Op) (certificate member kekPacket kdkPacket : Data) : Prop where
  disciplined : Disciplined true D.kc ops
  stored : dictGet certificate.name (KeyChain.run D.kc ops).store.certs = some certificate
  format : KeyChain.checkCert certificate = .ok ()
  encodable : DataOk certificate
  kek : ∃ d, d = kekData (KeyChain.keyOfCert certificate.name) certificate ∧ kekPacket.name = d.name ∧ kekPacket.content = d.content
  kdk : ∃ bag randomBytes random d s, KeyChain.exportSafeBag D.kc certificate (some (randomBytes.map secretByte)) (KeyChain.run D.kc ops) =
      (.ok (certificate, bag), s) ∧
    kdkData E.rsaEncrypt (KeyChain.keyOfCert certificate.name) { certificate := certificate, privateKeyBag := bag } member randomBytes random = .ok d ∧
    kdkPacket.name = d.name ∧ kdkPacket.content = d.content
  size : ∀ c, kdkPacket.content = some c → c.length < 2 ^ 64
  credentials : D.credentials = KeyChain.keyOfCert member.name

/-- The producer: an encryptor with this history, which got only this KEK and made its CKs at different times. -/
structure Produces (E : EncParams) (now : Nat) (bits : Bytes) (env : Env) (acts : List EAct) (kekPacket : Data) : Prop where
  signs : Signs E
  kek : ∀ d, .kek d ∈ (Encryptor.run E now bits env acts).trace → d = kekPacket
  times : (times now acts).Nodup ∧ ∀ t ∈ times now acts, t < 2 ^ 64
  canonical : CanonicalName E.ckPrefix

/-- The content was made by the encryptor for the plain text, at some time, encoded, and decoded by the member. -/
def Encrypts (E : EncParams) (now : Nat) (bits : Bytes) (env : Env) (acts : List EAct) (plain : Bytes) (x : EncryptedContent) : Prop :=
  ∃ done rest iv, acts = done ++ rest ∧ iv ≠ [] ∧
    let wire := Encrypt.encodeEncryptedContentV2 ((Encryptor.run E now bits env done).encrypt E plain iv)
    wire.length < 2 ^ 64 ∧ Encrypt.decodeEncryptedContentV2 wire = .ok x

/-- The packets of the network: the CK packets that the encryptor published, and the KDK packet. -/
def Packet (E : EncParams) (now : Nat) (bits : Bytes) (env : Env) (acts : List EAct) (kdkPacket d : Data) : Prop :=
  .published d ∈ (Encryptor.run E now bits env acts).trace ∨ d = kdkPacket

/-- The names of the two kinds of packets are different: no CK can have a name that begins the name of the KDK packet, nor the other way round. -/
def Separate (E : EncParams) (now : Nat) (bits : Bytes) (env : Env) (acts : List EAct) (kdkPacket : Data) : Prop :=
  ¬ E.ckPrefix ++ [ck] <+: kdkPacket.name ∧ ∀ d, .published d ∈ (Encryptor.run E now bits env acts).trace → ¬ kdkPacket.name <+: d.name

/-- The network: an Interest is answered with a packet whose name begins with the name of the Interest, or it times out. -/
structure Network (D : DecParams) (packet : Data → Prop) (acts : List DAct) : Prop where
  honest : ∀ a id d env b, acts = a ++ .data id d env :: b → packet d ∧ ∀ i, .express id i ∈ (Decryptor.run D a).trace → i.name <+: d.name
  calm : ∀ a ∈ acts, a ≠ .shutdown ∧ (∀ id, a ≠ .nack id) ∧ ∀ e, envOfD a = some e → e.express = .ok

/-- The application asks for a new CK when all earlier calls are answered. -/
def OneAtATime (D : DecParams) (acts : List DAct) : Prop :=
  ∀ a x env b, acts = a ++ .decrypt x env :: b →
    (∃ c y, .call c y ∈ (Decryptor.run D a).trace ∧ ckOf y = ckOf x) ∨
    ∀ c y, .call c y ∈ (Decryptor.run D a).trace → answers (Decryptor.run D a).trace c = 1

/-- The number of Interests that timed out. -/
def timeouts (acts : List DAct) : Nat := acts.countP fun a => match a with | .timeout _ _ => true | _ => false

end PyNDN.Spec.Nac
