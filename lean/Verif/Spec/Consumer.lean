import Verif.Model.Consumer
import Verif.Spec.GroupManager
/-
Specification of the consumer.
-/
namespace PyNDN.Spec.Consumer
open PyNDN PyNDN.Consumer EncV1
open _root_.PyNDN.Encrypt (EncryptedContent encodeEncryptedContent decodeEncryptedContent)
open _root_.PyNDN.PSync (dictGet)

/-! ### Where the plain text comes from -/

/-- The key decrypts the content to the plain text. -/
def Opens (P : Params) (c : EncryptedContent) (key plain : Bytes) : Prop :=
  (c.algorithmType = some 1 ∧ ∃ iv, c.initialVector = some iv ∧ P.aes.decryptCbc key iv c.payload = some plain) ∨
  (c.algorithmType = some 3 ∧ P.rsa.decrypt key (c.payload.getD []) = some plain)

/-- The Data holds this encrypted content. -/
def Holds (d : Data) (c : EncryptedContent) : Prop := ∃ w, d.content = some w ∧ decodeEncryptedContent w = .ok c

/-- The name of the D-KEY for that of an E-KEY.  (Names of E-KEYs have at least three components; the other cases are what the code does.) -/
inductive DName : Name → Name → Prop where
  | key (g : Name) (x a b : Component) : DName (g ++ [x, a, b]) (g ++ [dKeyC, a, b])
  | two (a b : Component) : DName [a, b] [dKeyC, a, b]
  | one (a : Component) : DName [a] [dKeyC, a, a]

/-- A key of the consumer, by the encoding of its name: in the database from the start, or added. -/
def Known (db : List (Bytes × Bytes)) (ops : List Op) (n : Name) (key : Bytes) : Prop :=
  dictGet (encodeName n) db = some key ∨ ∃ m, Op.addDecryptionKey m key ∈ ops ∧ encodeName m = encodeName n

/-- A name of the group. -/
def GroupOf (g0 : Name) (ops : List Op) (g : Name) : Prop := g = g0 ∨ Op.setGroup g ∈ ops ∨ Op.restart g ∈ ops

/-- The bits of the D-KEY come from a Data that was received and verified for the name of the D-KEY and of the consumer: it has two parts, the first
is decrypted with a key of the consumer, the second with what the first gives. -/
def DKeyFrom (P : Params) (key : Name → Bytes → Prop) (trace : List Out) (n : Name) (bits : Bytes) : Prop :=
  ∃ p d w nonce v payload consumerKey nonceKey,
    Out.answered p d .verified ∈ trace ∧ p.name = n ++ [forC] ++ P.consumerName ∧ d.content = some w ∧
    decodeEncryptedContent w = .ok nonce ∧ encodeEncryptedContent nonce = .ok v ∧ decodeEncryptedContent (w.drop v.length) = .ok payload ∧
    key nonce.keyLocator.keyName consumerKey ∧ Opens P nonce consumerKey nonceKey ∧ Opens P payload nonceKey bits

/-- The bits of the C-KEY come from a Data that was received and verified for the name of the C-KEY and of the group, and are decrypted with the D-KEY of
the E-KEY that is named in it. -/
def CKeyFrom (P : Params) (key : Name → Bytes → Prop) (group : Name → Prop) (trace : List Out) (n : Name) (bits : Bytes) : Prop :=
  ∃ p d k g dName dKey,
    Out.answered p d .verified ∈ trace ∧ group g ∧ p.name = n ++ [forC] ++ g ∧ Holds d k ∧ DName k.keyLocator.keyName dName ∧
    DKeyFrom P key trace dName dKey ∧ Opens P k dKey bits

/-! ### Counting -/

/-- Calls of `consume` with these callbacks. -/
def consumes (call : Nat) (ops : List Op) : Nat := ops.countP fun o => match o with | .consume c _ _ => c = call | _ => false

/-- Calls of the callbacks. -/
def callbacks (call : Nat) (trace : List Out) : Nat :=
  trace.countP fun o => match o with | .complete c _ _ => c = call | .error c _ => c = call | _ => false

def logs (call : Nat) (trace : List Out) : Nat := trace.countP fun o => match o with | .logged c => c = call | _ => false

/-- Interests that are pending. -/
def open' (call : Nat) (l : List Pending) : Nat := l.countP fun p => p.call = call

/-- Interests that were expressed, the first time or after a timeout. -/
def sends (again : Bool) (call : Nat) (trace : List Out) : Nat :=
  trace.countP fun o => match o with | .sent p a => p.call = call ∧ a = again | _ => false

/-! ### Conditions -/

/-- The Data does not make onVerified raise: in a C-KEY a key is named, and a D-KEY has two parts that can be decoded. -/
def Readable (p : Pending) (d : Data) : Prop :=
  match p.goal with
  | .content => True
  | .cKey _ _ => ∀ k, Holds d k → k.keyLocator.keyName ≠ []
  | .dKey _ _ _ _ => ∀ w nonce, d.content = some w → decodeEncryptedContent w = .ok nonce →
      ∃ v payload, encodeEncryptedContent nonce = .ok v ∧ decodeEncryptedContent (w.drop v.length) = .ok payload

def NoRestart (op : Op) : Prop := ∀ g, op ≠ .restart g

end PyNDN.Spec.Consumer
