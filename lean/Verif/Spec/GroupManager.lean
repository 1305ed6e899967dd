import Verif.Model.GroupManager
import Verif.Props.Schedule
import Verif.Props.ScheduleWire
import Verif.Spec.PibSqlite
/-
Specification of a group manager by maps from names, independently of tables, row numbers and SQL.
-/
namespace PyNDN.Spec.Group
open PyNDN PyNDN.Group Encrypt EncV1
open _root_.PyNDN.Spec.PibSqlite (upd NameOk)

structure Group where
  schedule : String → Option Schedule := fun _ => none
  /-- The schedule, the name of the key and the key of a member. -/
  member : Name → Option (String × Name × Bytes) := fun _ => none
  /-- The public key of an E-KEY, and its private key if the process that made it still runs. -/
  ekey : Name → Option (Bytes × Option Bytes) := fun _ => none

namespace Group

def setSchedule (K : Group) (n : String) (s : Schedule) : Group := { K with schedule := upd K.schedule n (some s) }

/-- With its members. -/
def deleteSchedule (K : Group) (n : String) : Group :=
  { K with
    schedule := upd K.schedule n none
    member := fun i => match K.member i with
      | some (n', k, key) => if n' = n then none else some (n', k, key)
      | none => none }

/-- Its members stay with it. -/
def renameSchedule (K : Group) (old new : String) : Group :=
  { K with
    schedule := upd (upd K.schedule old none) new (K.schedule old)
    member := fun i => (K.member i).map fun (n, k, key) => (if n = old then new else n, k, key) }

end Group

/-! ### Group keys -/

/-- The keys of the members that may read at the time. -/
def Reader (K : Group) (t : ℚ) (k : Name) (key : Bytes) : Prop :=
  ∃ i n s, K.member i = some (n, k, key) ∧ K.schedule n = some s ∧ Allowed s t

/-- The component is the time stamp, in whole seconds. -/
def Stamp (c : Component) (ms : Int) : Prop := ms % 1000 = 0 ∧ ∃ s, toIsoString ms = .ok s ∧ c = .generic (asciiBytes s)

/-- The bytes hold the plain text encrypted with the public key of this name: directly with RSA if it fits, or else with AES and a new key,
which is encrypted with RSA. -/
def Sealed (R : Rsa) (A : Nac.Aes) (keyName : Name) (key plain content : Bytes) : Prop :=
  (∃ rnd cipher, R.encrypt key plain rnd = .ok cipher ∧
    encodeEncryptedContent { algorithmType := some 3, keyLocator := { type := some 1, keyName := keyName }, payload := some cipher } = .ok content) ∨
  ∃ rnd cipher nonce iv w v, (∃ rnd', R.encrypt key plain rnd' = .tooLong) ∧ nonce.length = 16 ∧ iv.length = 16 ∧ R.encrypt key nonce rnd = .ok cipher ∧
    encodeEncryptedContent { algorithmType := some 3, keyLocator := { type := some 1, keyName := keyName }, payload := some cipher } = .ok w ∧
    encodeEncryptedContent
      { algorithmType := some 1
        keyLocator := { type := some 1, keyName := keyName ++ [nonceC] }
        initialVector := some iv
        payload := some (A.encryptCbc nonce iv plain) } = .ok v ∧
    content = w ++ v

/-- The key pair for the name, and the group after that: the old one, or a new one that is stored.  The private key of an old one that was made
before a restart is lost, for which there is a KeyError. -/
def pair (K : Group) (name : Name) (needRegenerate : Bool) (fresh : Bytes × Bytes) : Except GErr (Bytes × Bytes) × Group :=
  match K.ekey name, needRegenerate with
  | some (pub, some priv), false => (.ok (pub, priv), K)
  | some (_, none), false => (.error (.py .key), K)
  | some (_, none), true => (.error (.py .key), { K with ekey := upd K.ekey name none })
  | _, _ => (.ok fresh, { K with ekey := upd K.ekey name (some (fresh.1, some fresh.2)) })

/-- The packets: one with the public key and, for each reader in the order of the names of their keys, one with the private key. -/
def Packets (P : Params) (K : Group) (t : ℚ) (start stop : Component) (pub priv : Bytes) (ds : List Data) : Prop :=
  ∃ e rest ms, ds = e :: rest ∧
    e.name = P.pre ++ [readC] ++ P.dataType ++ [eKeyC, start, stop] ∧ e.content = some pub ∧
    e.metaInfo.freshnessPeriod = some (P.freshnessHours * 3600000) ∧
    (ms.map Prod.fst).Pairwise nameLt ∧ (∀ k key, (k, key) ∈ ms ↔ Reader K t k key) ∧
    List.Forall₂ (fun m d => d.name = P.pre ++ [readC] ++ P.dataType ++ [dKeyC, start, stop, forC] ++ m.1 ∧
      d.metaInfo.freshnessPeriod = some (P.freshnessHours * 3600000) ∧
      ∃ c, d.content = some c ∧ Sealed P.rsa P.aes m.1 m.2 priv c) ms rest

/-- What `getGroupKey` gives, and the group after that.  There are no packets if nobody may read.  Else the packets are for an interval with the time
slot in it, in all of which the same schedules allow reading. -/
def GroupKey (P : Params) (K : Group) (t : ℚ) (needRegenerate : Bool) (priv pub : Bytes) (r : Res) (K' : Group) : Prop :=
  ((∀ n s, K.schedule n = some s → ¬ Allowed s t) ∧ r = .packets [] ∧ K' = K) ∨
  ((∃ n s, K.schedule n = some s ∧ Allowed s t) ∧ ∃ (a b : Int) (start stop : Component),
    (a : ℚ) ≤ t ∧ t < b ∧ (∀ t' : ℚ, a ≤ t' → t' < b → ∀ n s, K.schedule n = some s → (Allowed s t' ↔ Allowed s t)) ∧
    Stamp start a ∧ Stamp stop b ∧
    match pair K (P.pre ++ [readC] ++ P.dataType ++ [eKeyC, start, stop]) needRegenerate (pub, priv) with
    | (.error e, K1) => r = .error e ∧ K' = K1
    | (.ok (pub', priv'), K1) => K' = K1 ∧ ∃ ds, r = .packets ds ∧ Packets P K t start stop pub' priv' ds)

/-- The group that a new object finds in the file. -/
def Group.reopened (K : Group) : Group := { K with ekey := fun n => (K.ekey n).map fun (pub, _) => (pub, none) }

/-! ### Calls -/

def fails (c : Prop) [Decidable c] (K next : Group) (r : Res) (K' : Group) : Prop := if c then r = .error .db ∧ K' = K else r = .none ∧ K' = next

/-- What a call gives, and the group after it. -/
def Step (P : Params) (K : Group) : Op → Res → Group → Prop
  | .addSchedule n s, r, K' => fails (n = "" ∨ (K.schedule n).isSome) K (K.setSchedule n s) r K'
  | .updateSchedule n s, r, K' => fails (n = "" ∧ (K.schedule n).isNone) K (K.setSchedule n s) r K'
  | .deleteSchedule n, r, K' => fails False K (K.deleteSchedule n) r K'
  | .renameSchedule old new, r, K' => fails (new = "" ∨ (old ≠ new ∧ (K.schedule old).isSome ∧ (K.schedule new).isSome)) K
      (if (K.schedule old).isSome then K.renameSchedule old new else K) r K'
  | .hasSchedule n, r, K' => r = .bool (K.schedule n).isSome ∧ K' = K
  | .listAllScheduleNames, r, K' => (∃ l, r = .strings l ∧ l.Nodup ∧ ∀ n, n ∈ l ↔ (K.schedule n).isSome = true) ∧ K' = K
  | .getSchedule n, r, K' => r = (match K.schedule n with | some s => .schedule s | none => .error .db) ∧ K' = K
  | .getScheduleMembers n, r, K' => (∃ l, r = .members l ∧ (l.map Prod.fst).Nodup ∧
      ∀ k key, (k, key) ∈ l ↔ ∃ i, K.member i = some (n, k, key)) ∧ K' = K
  | .addMember n k key, r, K' => fails (K.schedule n = none ∨ (K.member k.dropLast).isSome) K
      { K with member := upd K.member k.dropLast (some (n, k, key)) } r K'
  | .updateMemberSchedule i n, r, K' => fails (K.schedule n = none) K
      { K with member := upd K.member i ((K.member i).map fun (_, k, key) => (n, k, key)) } r K'
  | .deleteMember i, r, K' => fails False K { K with member := upd K.member i none } r K'
  | .hasMember i, r, K' => r = .bool (K.member i).isSome ∧ K' = K
  | .listAllMembers, r, K' => (∃ l, r = .names l ∧ l.Nodup ∧ ∀ i, i ∈ l ↔ (K.member i).isSome = true) ∧ K' = K
  | .getMemberSchedule i, r, K' => r = (match K.member i with | some (n, _, _) => .string n | none => .error .db) ∧ K' = K
  | .cleanEKeys, r, K' => r = .error .db ∧ K' = K
  | .getGroupKey t re env, r, K' => ∃ priv pub, env.priv = some priv ∧ P.rsa.derive priv = some pub ∧ GroupKey P K t re priv pub r K'
  | .restart, r, K' => r = .none ∧ K' = K.reopened

/-- What the calls of a history give, and the group after them. -/
def Agree (P : Params) : Group → List Op → List Res → Group → Prop
  | K, [], rs, K' => rs = [] ∧ K' = K
  | K, op :: ops, rs, K'' => ∃ r K' rest, rs = r :: rest ∧ Step P K op r K' ∧ Agree P K' ops rest K''

/-- What may be in the file after the end of the process in the call, where `K` was before the call and `K'` would be after it: one of these, or, if an
E-KEY is made anew, the group without it. -/
def Crashed (K : Group) (op : Op) (K' C : Group) : Prop :=
  C = K.reopened ∨ C = K'.reopened ∨ ∃ t env n, op = .getGroupKey t true env ∧ C = ({ K with ekey := upd K.ekey n none } : Group).reopened

/-! ### Conditions -/

/-- A key with which RSA can encrypt: only a long plain text is refused. -/
def KeyOk (R : Rsa) (key : Bytes) : Prop :=
  ∀ plain rnd, (∃ cipher, R.encrypt key plain rnd = .ok cipher) ∨ (R.encrypt key plain rnd = .tooLong ∧ 16 < plain.length)

/-- The order of rows is any; signing changes nothing but the signature; the names can be encoded. -/
structure Sound (P : Params) : Prop where
  order : ∀ {α : Type} (l : List α), (P.order l).Perm l
  sign : ∀ d, ∃ d', P.sign d = .ok d' ∧ d'.name = d.name ∧ d'.metaInfo = d.metaInfo ∧ d'.content = d.content
  name : CanonicalName (P.pre ++ [readC] ++ P.dataType)
  size : (flat (nameFields (P.pre ++ [readC] ++ P.dataType))).length < 2 ^ 32

/-- The schedule was made by adding intervals that can be stored. -/
def Made (s : Schedule) : Prop :=
  (∃ cs : List (Bool × RepetitiveInterval), (∀ c ∈ cs, Storable c.2) ∧ s = cs.foldl addInterval {}) ∧ ∀ w, s.wireEncode = .ok w → w.length < 2 ^ 64

/-- The call can be made. -/
def Fine (P : Params) (K : Group) : Op → Prop
  | .addSchedule _ s => Made s
  | .updateSchedule _ s => Made s
  | .addMember _ k key => NameOk k ∧ k ≠ [] ∧ KeyOk P.rsa key
  | .updateMemberSchedule i _ => NameOk i
  | .deleteMember i => NameOk i
  | .hasMember i => NameOk i
  | .getMemberSchedule i => NameOk i
  | .getGroupKey t _ env =>
    (∀ n s, K.schedule n = some s → Askable (s.white ++ s.black) t) ∧
    -30610224000000 ≤ midnight t ∧ midnight t + 86400000 < 253402300800000 ∧
    (∃ priv pub, env.priv = some priv ∧ P.rsa.derive priv = some pub) ∧
    ∀ i, (env.rnd i).nonce.length = 16 ∧ (env.rnd i).iv.length = 16
  | _ => True

def FineAll (P : Params) : Group → List Op → Prop
  | _, [] => True
  | K, op :: ops => Fine P K op ∧ ∀ r K', Step P K op r K' → FineAll P K' ops

end PyNDN.Spec.Group
