import Verif.Model.Producer
import Verif.Spec.GroupManager
import Verif.Spec.ExcludeRange
/-
Specification of the producer.
-/
namespace PyNDN.Spec.Producer
open PyNDN PyNDN.Producer EncV1
open _root_.PyNDN.Encrypt (pyRound encodeEncryptedContent)
open _root_.PyNDN.Spec.Group (Sealed Stamp KeyOk)
open _root_.PyNDN.Spec.PibSqlite (upd)

/-- The component is the time, to the nearest second. -/
def StampOf (c : Component) (t : ℚ) : Prop := Stamp c (pyRound (t / 1000) * 1000)

/-- The content keys by hour. -/
abbrev Keys := Int → Option Bytes

/-- A call makes a content key for its hour if there is none. -/
def made (K : Keys) (t : ℚ) (key : Bytes) : Keys := if (K (hour t)).isSome then K else upd K (hour t) (some key)

def next (K : Keys) : Op → Keys
  | .create t _ env => made K t env.key
  | .produce _ t _ env => made K t env.key
  | _ => K

/-- What a call gives if it does not raise. -/
def Gives (P : Params) (K : Keys) : Op → Res → Prop
  | .create t _ _, r => ∀ n, r = .name n → ∃ stamp, Stamp stamp (hour t * 3600000) ∧ n = P.pre ++ [sampleC] ++ P.dataType ++ [cKeyC, stamp]
  | .produce data t content env, r => ∀ d, r = .packet d → ∃ stamp1 stamp2 key w, StampOf stamp1 t ∧ Stamp stamp2 (hour t * 3600000) ∧
      made K t env.key (hour t) = some key ∧
      d.name = P.pre ++ [sampleC] ++ P.dataType ++ [stamp1, forC] ++ (P.pre ++ [sampleC] ++ P.dataType ++ [cKeyC, stamp2]) ∧
      d.metaInfo = data.metaInfo ∧ d.content = some w ∧
      encodeEncryptedContent
        { algorithmType := some 1
          keyLocator := { type := some 1, keyName := P.pre ++ [sampleC] ++ P.dataType ++ [cKeyC, stamp2] }
          initialVector := some env.iv
          payload := some (P.aes.encryptCbc key env.iv content) } = .ok w
  | _, _ => True

def Agree (P : Params) : Keys → List Op → List Res → Prop
  | _, [], rs => rs = []
  | K, op :: ops, rs => ∃ r rest, rs = r :: rest ∧ Gives P K op r ∧ Agree P (next K op) ops rest

def keysAfter (K : Keys) (ops : List Op) : Keys := ops.foldl next K

/-- How many calls with this callback made a content key. -/
def creations (cb : Nat) : Keys → List Op → Nat
  | _, [] => 0
  | K, op :: ops => (match op with | .create t c _ => if (K (hour t)).isNone ∧ c = some cb then 1 else 0 | _ => 0) + creations cb (next K op) ops

/-- The node names: that of the data type and those of its prefixes. -/
def Node (P : Params) (n : Name) : Prop := ∃ k, 0 < k ∧ k ≤ P.dataType.length ∧ n = P.pre ++ [readC] ++ P.dataType.take k ++ [eKeyC]

/-- The period in the last two components of the name of an E-KEY. -/
def Period (n : Name) (b e : Int) : Prop := ∃ rest c1 c2, n = rest ++ [c1, c2] ∧ stampTime c1 = .ok b ∧ stampTime c2 = .ok e

/-- A packet with the content key of the hour of the time slot, encrypted with an E-KEY that was received for one of the nodes, and whose period ends
after the time slot. -/
def Packet (P : Params) (K : Keys) (trace : List Out) (t : ℚ) (c : Data) : Prop :=
  ∃ (key : Bytes) (stamp : Component) (p : Pending) (d : Data) (b e : Int) (eKeyName : Name) (w : Bytes),
    Stamp stamp (hour t * 3600000) ∧ K (hour t) = some key ∧
    .answered p d ∈ trace ∧ Node P p.name ∧ Period d.name b e ∧ t < e ∧
    (eKeyName = d.name ∨ (b ≤ t ∧ ∃ c1 c2, PyNDN.Group.isoComponent b = .ok c1 ∧ PyNDN.Group.isoComponent e = .ok c2 ∧ eKeyName = p.name ++ [c1, c2])) ∧
    c.name = P.pre ++ [sampleC] ++ P.dataType ++ [cKeyC, stamp, forC] ++ eKeyName ∧ c.content = some w ∧
    Sealed P.rsa P.aes eKeyName (d.content.getD []) key w

/-- A packet for the time slot that was made with this E-KEY packet, by its name. -/
def MadeWith (P : Params) (t : ℚ) (d : Data) (c : Data) : Prop :=
  ∃ stamp, Stamp stamp (hour t * 3600000) ∧ c.name = P.pre ++ [sampleC] ++ P.dataType ++ [cKeyC, stamp, forC] ++ d.name

/-- How often the callback was called. -/
def calls (cb : Nat) (trace : List Out) : Nat := trace.countP fun o => match o with | .keys c _ => c = cb | _ => false

/-- Interests for the node and the time slot: first ones (or after an E-KEY of an earlier period), and those after a timeout. -/
def sends (again : Bool) (timeCount : Int) (n : Name) (trace : List Out) : Nat :=
  trace.countP fun o => match o with | .sent p a => a = again ∧ pyRound p.timeSlot = timeCount ∧ p.name = n | _ => false

/-- What an Interest for the time slot may exclude: E-KEYs that begin at its time stamp or later, and those that do not begin later than one that was
received for the same node and time slot and had ended before the time slot. -/
def MayExclude (trace : List Out) (p : Pending) (c : Component) : Prop :=
  (∃ stamp, StampOf stamp p.timeSlot ∧ ExcludeRange.le stamp c) ∨
  ∃ q d rest c1 c2 e, Out.answered q d ∈ trace ∧ q.name = p.name ∧ q.timeSlot = p.timeSlot ∧ d.name = rest ++ [c1, c2] ∧ stampTime c2 = .ok e ∧ (e : ℚ) ≤ p.timeSlot ∧
    ExcludeRange.le c c1

/-! ### Conditions -/

/-- The Data were not excluded by the Interests that they answer, in the component with the begin of the period. -/
def Matched (trace : List Out) : Prop := ∀ p d, Out.answered p d ∈ trace → ∀ rest c1 c2, d.name = rest ++ [c1, c2] → ExcludeRange.Plain c1 ∧ ¬ Excluded p.exclude c1

structure Sound (P : Params) : Prop where
  sign : ∀ d, ∃ d', P.sign d = .ok d' ∧ d'.name = d.name ∧ d'.metaInfo = d.metaInfo ∧ d'.content = d.content
  name : CanonicalName (P.pre ++ [sampleC] ++ P.dataType)

/-- A time in the years 1000 to 9999. -/
def InYears (t : ℚ) : Prop := -30610224000000 ≤ t ∧ t < 253402300799000

def EnvOk (env : Env) : Prop := env.key.length = 16 ∧ env.iv.length = 16 ∧ ∀ i, (env.rnd i).nonce.length = 16 ∧ (env.rnd i).iv.length = 16

def Fine : Op → Prop
  | .create t _ env => InYears t ∧ EnvOk env
  | .produce _ t _ env => InYears t ∧ EnvOk env
  | .data _ _ env => EnvOk env
  | _ => True

/-- An E-KEY packet: a name that can be encoded, with a period, and a key that RSA can use. -/
def EKey (P : Params) (d : Data) : Prop :=
  CanonicalName d.name ∧ KeyOk P.rsa (d.content.getD []) ∧
  ∃ (rest : Name) (c1 c2 : Component) (b e : Int), d.name = rest ++ [c1, c2] ∧ Stamp c1 b ∧ Stamp c2 e ∧ IsoTime b ∧ IsoTime e

/-- There is no restart, and all Data are E-KEY packets. -/
def Honest (P : Params) : Op → Prop
  | .data _ d _ => EKey P d
  | .restart => False
  | _ => True

end PyNDN.Spec.Producer
