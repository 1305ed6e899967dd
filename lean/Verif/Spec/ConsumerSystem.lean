import Verif.Spec.Consumer
import Verif.Spec.Producer
/-
Specification of the group manager, the producer and the consumer together: the keys that there are, and the packets that are made with them.
-/
namespace PyNDN.Spec.Consumer
open PyNDN PyNDN.Consumer EncV1
open _root_.PyNDN.Encrypt (EncryptedContent encodeEncryptedContent decodeEncryptedContent)
open _root_.PyNDN.PSync (dictGet)
open _root_.PyNDN.Spec.PibSqlite (NameOk)

/-- The keys of everybody. -/
structure World where
  /-- The content keys by their names. -/
  content : Name → Option Bytes
  /-- The public and private keys of the groups, by the name before "E-KEY" and the two components of the period. -/
  group : Name → Component → Component → Option (Bytes × Bytes)
  /-- The public and private keys of the consumer. -/
  user : Name → Option (Bytes × Bytes)

/-- What is encrypted with the public key is decrypted with the private key. -/
def Pair (R : Rsa) (pub priv : Bytes) : Prop := ∀ plain rnd cipher, R.encrypt pub plain rnd = .ok cipher → R.decrypt priv cipher = some plain

/-- The keys of a pair fit, and "FOR" is not in the names of content keys and group keys. -/
structure World.Sound (W : World) (P : Params) : Prop where
  aes : ∀ key iv plain, plain.length % 16 = 0 → P.aes.decrypt key iv (P.aes.encrypt key iv plain) = some plain
  group : ∀ g a b pub priv, W.group g a b = some (pub, priv) → Pair P.rsa pub priv
  user : ∀ n pub priv, W.user n = some (pub, priv) → Pair P.rsa pub priv ∧ priv ≠ []
  contentName : ∀ k key, W.content k = some key → forC ∉ k
  groupName : ∀ g a b x, W.group g a b = some x → forC ∉ g ++ [dKeyC, a, b]

/-- The bytes are the encoding of this content with this plain text, encrypted with AES. -/
def SealedAes (P : Params) (keyName : Name) (key iv plain w : Bytes) : Prop :=
  encodeEncryptedContent
    { algorithmType := some 1, keyLocator := { type := some 1, keyName := keyName }, initialVector := some iv, payload := some (P.aes.encryptCbc key iv plain) } = .ok w

def SealedRsa (keyName : Name) (cipher w : Bytes) : Prop :=
  encodeEncryptedContent { algorithmType := some 3, keyLocator := { type := some 1, keyName := keyName }, payload := some cipher } = .ok w

/-- A Data as of `Producer.produce`, with this plain text. -/
def ContentPacket (W : World) (P : Params) (d : Data) (plain : Bytes) : Prop :=
  ∃ k key iv w, W.content k = some key ∧ CanonicalName k ∧ iv.length = 16 ∧ SealedAes P k key iv plain w ∧ d.content = some w ∧ w.length < 2 ^ 64

/-- A Data as `Producer` gives to onEncryptedKeys: the content key of this name, encrypted with the public key of a group. -/
def CKeyPacket (W : World) (P : Params) (k : Name) (d : Data) : Prop :=
  ∃ key g a b pub priv rnd cipher w, W.content k = some key ∧ W.group g a b = some (pub, priv) ∧ CanonicalName (g ++ [eKeyC, a, b]) ∧
    P.rsa.encrypt pub key rnd = .ok cipher ∧ SealedRsa (g ++ [eKeyC, a, b]) cipher w ∧ d.content = some w ∧ w.length < 2 ^ 64

/-- A Data as of `GroupManager.getGroupKey`: the private key of the group, encrypted for the consumer, in two parts. -/
def DKeyPacket (W : World) (P : Params) (n : Name) (d : Data) : Prop :=
  ∃ g a b pub priv u upub upriv rnd cipher nonce iv w v, n = g ++ [dKeyC, a, b] ∧ W.group g a b = some (pub, priv) ∧ W.user u = some (upub, upriv) ∧ NameOk u ∧
    iv.length = 16 ∧ P.rsa.encrypt upub nonce rnd = .ok cipher ∧ SealedRsa u cipher w ∧ SealedAes P (u ++ [nonceC]) nonce iv priv v ∧
    d.content = some (w ++ v) ∧ w.length < 2 ^ 64 ∧ v.length < 2 ^ 64

/-- The answer to an Interest is a packet of that kind.  That it has the key which the Interest was for follows, in the case of keys, from the names: that of
the Data begins with that of the Interest, and is made of the name of the key, "FOR" and the name of the key with which it is encrypted. -/
def Honest (W : World) (P : Params) (p : Pending) (d : Data) : Prop :=
  match p.goal with
  | .content => ∃ plain, ContentPacket W P d plain
  | .cKey _ _ => p.name <+: d.name ∧ ∃ k e, d.name = k ++ [forC] ++ e ∧ CKeyPacket W P k d
  | .dKey _ _ _ _ => p.name <+: d.name ∧ ∃ n u, d.name = n ++ [forC] ++ u ∧ DKeyPacket W P n d

/-- The consumer gets its own keys. -/
def OwnKeys (W : World) : Op → Prop
  | .addDecryptionKey n k => NameOk n ∧ ∃ pub, W.user n = some (pub, k)
  | _ => True

/-- All verified answers in the trace are honest. -/
def HonestTrace (W : World) (P : Params) (trace : List Out) : Prop := ∀ p d, Out.answered p d .verified ∈ trace → Honest W P p d

/-- Nothing goes wrong in this step: Data are verified, there is no NACK and no second timeout, nothing raises and no key is deleted. -/
def Quiet (s : St) : Op → Prop
  | .consume _ _ env => env.expressRaises = false
  | .data _ _ v env => v = .verified ∧ env.expressRaises = false ∧ env.dbRaises = false
  | .timeout id env => env.expressRaises = false ∧ ∀ p, s.pending.find? (fun p => p.id = id) = some p → 0 < p.retrials
  | .nack id => s.pending.find? (fun p => p.id = id) = none
  | .deleteKey _ => False
  | _ => True

def QuietAll (P : Params) : St → List Op → Prop
  | _, [] => True
  | s, op :: ops => Quiet s op ∧ QuietAll P (step P op s).2 ops

/-- How often the plain text was given. -/
def completes (call : Nat) (trace : List Out) : Nat := trace.countP fun o => match o with | .complete c _ _ => c = call | _ => false

end PyNDN.Spec.Consumer
