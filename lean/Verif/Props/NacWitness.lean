import Verif.Props.NacPublish
/-
C68: where an encryptor departs from what its users expect, and examples that meet the hypotheses.
-/
namespace PyNDN
namespace Nac
namespace Encryptor
open Spec.Nac
open Spec (tlv flat nonNeg opt)
open Fetch (Express)

/-! ### A concrete encryptor -/

def comp (n : UInt8) : Component := ⟨.generic, [n]⟩

/-- Encryption appends the bits to the key; a KEK without content is of no use. -/
def exE : EncParams :=
  { accessPrefix := [comp 1]
    ckPrefix := [comp 2]
    aes := { encrypt := fun k iv p => k ++ iv ++ p, decrypt := fun k iv c => some (c.drop (k.length + iv.length)) }
    rsaEncrypt := fun c bits _ => c.map (· ++ bits)
    sign := fun _ d => some d
    fullName := fun d => .ok (d.name ++ [⟨.implicit, d.content.getD []⟩]) }

theorem exE_signs : Signs exE where
  sign := by intro r d d' h; cases h; exact ⟨rfl, rfl⟩
  full := by intro d k h; cases h; exact ⟨_, rfl⟩

def exKek : Data := { name := [comp 1, kek, comp 7], content := some [9] }

def ok : Env := {}

/-- Three timeouts, the retry a minute later, the KEK, and a second CK. -/
def exActs : List EAct :=
  [.timeout 1 ok, .timeout 2 ok, .timeout 3 ok, .fire 0 ok, .data 4 exKek ok, .regenerateCk 1001 [6] ok]

def exRun : Encryptor := run exE 1000 [5] ok exActs

theorem exActs_calm : Calm ok exActs := by
  refine ⟨⟨rfl, rfl⟩, fun a ha => ?_⟩
  simp only [exActs, List.mem_cons, List.not_mem_nil, or_false] at ha
  rcases ha with rfl | rfl | rfl | rfl | rfl | rfl <;> exact ⟨by simp, fun e he => by cases he; exact ⟨rfl, rfl⟩⟩

/-- The hypotheses of C68_one_interest, C68_three_tries and C68_retries are met, by a history in which the encryptor gives up once. -/
example : UntabledAll ok exActs ∧ Calm ok exActs ∧ EEv.error .kekRetrievalTimeout ∈ exRun.trace :=
  ⟨calm_untabled exActs_calm, exActs_calm, by decide +kernel⟩

/-- The hypotheses of C68_never_stops are met, while the encryptor waits. -/
example : (run exE 1000 [5] ok (exActs.take 2)).kekData = none ∧ (run exE 1000 [5] ok (exActs.take 2)).outstanding ≠ [] ∧
    (run exE 1000 [5] ok (exActs.take 3)).outstanding = [] ∧ (run exE 1000 [5] ok (exActs.take 3)).timers ≠ [] := by decide +kernel

/-- The hypotheses of C68_published, C68_prompt, C68_served_partial and C68_settled are met: two CKs are published. -/
example : Signs exE ∧ (times 1000 exActs).Nodup ∧ (∀ t ∈ times 1000 exActs, t < 2 ^ 64) ∧
    EEv.ck (ckNameAt exE 1000) [5] ∈ exRun.trace ∧
    (exRun.trace.filterMap fun e => match e with | .published d => some d.name | _ => none) =
      [ckNameAt exE 1000 ++ [encryptedBy] ++ exKek.name, ckNameAt exE 1001 ++ [encryptedBy] ++ exKek.name] ∧
    exRun.kekData = some exKek ∧ exRun.outstanding = [] ∧ exRun.timers = [] :=
  ⟨exE_signs, by decide +kernel, by decide +kernel, by decide +kernel, by decide +kernel, by decide +kernel, by decide +kernel, by decide +kernel⟩

/-- The hypotheses of C68_bad_kek are met by a KEK without content. -/
example : let s := run exE 1000 [5] ok [.data 1 { exKek with content := none } ok]
    s.kekData = some { exKek with content := none } ∧ s.outstanding = [] ∧ s.timers = [] ∧
    (∀ b r, exE.rsaEncrypt (none : Option Bytes) b r = none) ∧ EEv.error .encryptionFailure ∈ s.trace :=
  ⟨by decide +kernel, by decide +kernel, by decide +kernel, fun _ _ => rfl, by decide +kernel⟩

/-! ### Departures -/

/-- Two CKs that are made in the same millisecond have the same name.  Both are published, but an Interest for this name gets the packet
with the first one, also when the content was encrypted with the second one. -/
theorem C68_same_millisecond : let s := run exE 1000 [5] ok [.data 1 exKek ok, .regenerateCk 1000 [6] ok]
    s.ckName = ckNameAt exE 1000 ∧ s.ckBits = [6] ∧
    ((s.step exE (.interest s.ckName)).trace.filterMap fun e => match e with | .putData d => d.content | _ => none) =
      [tlv 130 (flat [(132, [9, 5])])] ∧
    (s.trace.filterMap fun e => match e with | .published d => d.content | _ => none) =
      [tlv 130 (flat [(132, [9, 5])]), tlv 130 (flat [(132, [9, 6])])] := by decide +kernel

/-- If a new CK is made while a retry is scheduled, the retry is not cancelled: when it comes, the encryptor asks for the KEK again
although it has one. -/
theorem C68_asks_again : let acts : List EAct :=
      [.timeout 1 ok, .timeout 2 ok, .timeout 3 ok, .regenerateCk 1001 [6] ok, .data 4 exKek ok]
    (run exE 1000 [5] ok acts).kekData = some exKek ∧ (run exE 1000 [5] ok acts).outstanding = [] ∧
    (run exE 1000 [5] ok (acts ++ [.fire 0 ok])).trace =
      (run exE 1000 [5] ok acts).trace ++ [.express 5 (kekInterest exE)] := by decide +kernel

/-- If the callback of the application raises when it is told that there is no KEK, no retry is scheduled: the encryptor has stopped. -/
theorem C68_raising_callback : let s := run exE 1000 [5] ok [.timeout 1 ok, .timeout 2 ok, .timeout 3 { errorRaises := true }]
    s.kekData = none ∧ s.outstanding = [] ∧ s.timers = [] := by decide +kernel

/-- If expressInterest raises, no retry is scheduled. -/
theorem C68_express_raises : let s := run exE 1000 [5] { express := .raises false } []
    s.kekData = none ∧ s.outstanding = [] ∧ s.timers = [] ∧ EEv.error .general ∈ s.trace := by decide +kernel

/-- If the encryptor is shut down after a nack, it sends another Interest after that. -/
theorem C68_after_shutdown : let acts : List EAct := [.nack 1 ok, .shutdown]
    (run exE 1000 [5] ok (acts ++ [.fire 0 ok])).trace = (run exE 1000 [5] ok acts).trace ++ [.express 2 (kekInterest exE)] := by decide +kernel

end Encryptor
end Nac
end PyNDN
