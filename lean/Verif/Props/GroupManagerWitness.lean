import Verif.Props.GroupManager
/-! C76: a concrete group that meets the hypotheses, and the cases in which the code does not do what its documentation says. -/
namespace PyNDN.Group
open Encrypt (Schedule Storable exSchedule exTime exWhite exBlack exSchedule_askable addInterval)
open EncV1 Spec Spec.Group
open _root_.PyNDN.Spec.PibSqlite (upd NameOk)

/-- A toy RSA: a key is its own public key, the cipher text is the key and the plain text; at most 20 bytes can be encrypted; the empty key cannot be used,
as a key of another kind cannot. -/
def exRsa : Rsa :=
  { derive := fun k => some k
    encrypt := fun key plain _ => if key = [] then .raises .value else if 20 < plain.length then .tooLong else .ok (key ++ plain)
    decrypt := fun key cipher => if cipher.take key.length = key then some (cipher.drop key.length) else none }

def exGroup : Params :=
  { pre := [.generic [80]]
    dataType := [.generic [100]]
    freshnessHours := 1
    rsa := exRsa
    aes := ⟨fun key iv p => p, fun key iv p => some p⟩
    sign := fun d => .ok d
    order := fun l => l }

theorem exGroup_sound : Sound exGroup where
  order l := List.Perm.refl l
  sign d := ⟨d, rfl, rfl, rfl, rfl⟩
  name := by unfold CanonicalName; decide
  size := by decide

theorem exKeyOk : KeyOk exRsa [1] := by
  intro plain rnd
  by_cases h : 20 < plain.length
  · exact .inr ⟨by simp [exRsa, h], by omega⟩
  · exact .inl ⟨[1] ++ plain, by simp [exRsa, h]⟩

/-- Alice's and Bob's keys. -/
def exAlice : Name := [.generic [65], .generic [1]]
def exBob : Name := [.generic [66], .generic [1]]

theorem exAlice_ok : NameOk exAlice := ⟨by unfold CanonicalName; decide, by decide⟩
theorem exBob_ok : NameOk exBob := ⟨by unfold CanonicalName; decide, by decide⟩

theorem exSchedule_made : Made exSchedule := by
  refine ⟨⟨[(true, exWhite), (false, exBlack)], ?_, rfl⟩, ?_⟩
  · intro c hc
    simp only [List.mem_cons, List.not_mem_nil, or_false] at hc
    rcases hc with rfl | rfl
    · exact ⟨⟨16672, by decide⟩, ⟨16682, by decide⟩, by decide, by decide, by decide, by decide, by decide, by decide, by decide⟩
    · exact ⟨⟨16674, by decide⟩, ⟨16674, by decide⟩, by decide, by decide, by decide, by decide, by decide, by decide, by decide⟩
  · intro w hw
    have h : exSchedule.wireEncode.toOption.all (fun w => decide (w.length < 2 ^ 64)) = true := by decide +kernel
    rw [hw] at h
    simpa [Except.toOption] using h

/-- A private key that RSA of this kind can encrypt directly, and a long one. -/
def exEnv : Env := { priv := some [7, 8, 9] }
def exLong : Env := { priv := some (List.replicate 30 7) }

theorem exEnv_rnd (i : Nat) : (exEnv.rnd i).nonce.length = 16 ∧ (exEnv.rnd i).iv.length = 16 := ⟨rfl, rfl⟩

/-- The results with packets and errors. -/
def outcome : Res → Option (Except GErr Nat)
  | .packets l => some (.ok l.length)
  | .error e => some (.error e)
  | _ => none

def names : Res → List Name
  | .packets l => l.map (·.name)
  | _ => []

def exOps : List Op := [.addSchedule "s" exSchedule, .addMember "s" exBob [1], .addMember "s" exAlice [1], .getGroupKey exTime false exEnv]

/-- The hypotheses of C76 hold of a history in which a schedule and two members are added and a group key is made. -/
theorem exOps_fine : FineAll exGroup {} exOps := by
  refine ⟨exSchedule_made, fun r1 K1 h1 => ⟨⟨exBob_ok, by decide, exKeyOk⟩, fun r2 K2 h2 => ⟨⟨exAlice_ok, by decide, exKeyOk⟩, fun r3 K3 h3 => ⟨?_, fun _ _ _ => trivial⟩⟩⟩⟩
  have hs : ∀ n x, K3.schedule n = some x → x = exSchedule := by
    have a1 : K1 = ({} : Spec.Group.Group).setSchedule "s" exSchedule := by
      have h1 : fails _ _ _ _ _ := h1
      unfold fails at h1
      rw [if_neg (by decide)] at h1
      exact h1.2
    have a2 : K2.schedule = K1.schedule := by
      have h2 : fails _ _ _ _ _ := h2
      unfold fails at h2
      split at h2 <;> rw [h2.2]
    have a3 : K3.schedule = K2.schedule := by
      have h3 : fails _ _ _ _ _ := h3
      unfold fails at h3
      split at h3 <;> rw [h3.2]
    intro n x
    rw [a3, a2, a1]
    show upd _ _ _ n = some x → _
    unfold upd
    split
    · intro e; cases e; rfl
    · intro e; cases e
  refine ⟨fun n x hx => ?_, by decide +kernel, by decide +kernel, ⟨_, _, rfl, rfl⟩, exEnv_rnd⟩
  rw [hs n x hx]
  exact exSchedule_askable

/-- The E-KEY is for 5 to 9 o'clock; the D-KEYs are for Alice and Bob, in this order. -/
example : (run exGroup exOps {}).1.flatMap names =
    let t (h : UInt8) : Component := .generic [50, 48, 49, 53, 48, 56, 50, 55, 84, 48, 48 + h, 48, 48, 48, 48]
    let pre : Name := [.generic [80], readC, .generic [100]]
    [pre ++ [eKeyC, t 5, t 9], pre ++ [dKeyC, t 5, t 9, forC] ++ exAlice, pre ++ [dKeyC, t 5, t 9, forC] ++ exBob] := by decide +kernel

/-- A private key that is too long for RSA is encrypted with AES. -/
example : (run exGroup (exOps ++ [.getGroupKey exTime true exLong]) {}).1.map outcome = [none, none, none, some (.ok 3), some (.ok 3)] := by decide +kernel

/-- The hypothesis of C76_same_key: after the first call, another call with other random choices. -/
example : (run exGroup (exOps ++ [.getGroupKey exTime false exLong]) {}).1.map outcome = [none, none, none, some (.ok 3), some (.ok 3)] := by decide +kernel

/-- A crash between the deletion of the E-KEY and the insertion of the new one: the two commits of the call. -/
example : (step exGroup (.getGroupKey exTime true exLong) (run exGroup exOps {}).2).2.log.map (·.ekeys.length) = [0, 1] := by decide +kernel

/-! ### Cases in which the code does not do what its documentation says -/

/-- `cleanEKeys`, "Delete all the EKeys in the database", never deletes any: it always raises. -/
theorem C76_clean (P : Params) (s : St) : (step P .cleanEKeys s).1 = .error .db ∧ (step P .cleanEKeys s).2.db = s.db := ⟨rfl, rfl⟩

/-- After a restart, with the database but without the private keys in memory, there is no group key for an interval that had one: `getGroupKey` raises
KeyError; with needRegenerate it raises too, and has then deleted the E-KEY, so that it works the next time. -/
theorem C76_restart : ∃ P ops t env, Sound P ∧ FineAll P {} ops ∧ (run P ops {}).1.map outcome = [none, none, none, some (.ok 3)] ∧
    (run P ([.restart, .getGroupKey t false env, .getGroupKey t false env, .getGroupKey t true env, .getGroupKey t true env]) (run P ops {}).2).1.map outcome =
      [none, some (.error (.py .key)), some (.error (.py .key)), some (.error (.py .key)), some (.ok 3)] :=
  ⟨exGroup, exOps, exTime, exEnv, exGroup_sound, exOps_fine, by decide +kernel, by decide +kernel⟩

/-- One member whose key RSA cannot use (`addMember` does not look at it) and there are no packets for anybody: `getGroupKey` raises when it comes to that
member, after it has stored the new E-KEY. -/
theorem C76_bad_key : ∃ P ops t env, Sound P ∧ FineAll P {} ops ∧
    (run P (ops ++ [.addMember "s" [.generic [90], .generic [1]] [], .getGroupKey t true env]) {}).1.map outcome =
      [none, none, none, some (.ok 3), none, some (.error (.py .value))] ∧
    (run P (ops ++ [.addMember "s" [.generic [90], .generic [1]] [], .getGroupKey t true env]) {}).2.db.ekeys.map (·.pub) = [List.replicate 30 7] :=
  ⟨exGroup, exOps, exTime, exLong, exGroup_sound, exOps_fine, by decide +kernel, by decide +kernel⟩

end PyNDN.Group
