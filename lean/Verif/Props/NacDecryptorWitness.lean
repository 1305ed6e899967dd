import Verif.Props.NacDecryptor
import Verif.Props.NacWitness
import Verif.Lemmas.KeyExample
/-
C69: where a decryptor departs from what its users expect, and examples that meet the hypotheses.
-/
namespace PyNDN
namespace Nac
namespace Decryptor
open Spec.Nac
open Fetch (Express)
open Encrypt (EncryptedContent SafeBag)
open PSync (dictGet)
open KeyChain (exP exA exGen exKey)
open Encryptor (comp ok)

/-! ### A concrete decryptor -/

/-- The NAC key of the access manager, its certificate and its safe bag. -/
def exCert : Data := (dictGet exKey (KeyChain.run exP [.createIdentity exA (exGen 1)]).store.defaultCerts).bind
  (fun n => dictGet n (KeyChain.run exP [.createIdentity exA (exGen 1)]).store.certs) |>.getD { name := [] }

def exBag : SafeBag := { certificate := exCert, privateKeyBag := exP.wrap 1 none }

/-- The KDK packet for the member with the credentials /3. -/
def exKdk : Data :=
  { name := kdkName exKey [comp 3]
    content := some (Encrypt.encodeEncryptedContentV2 { payload := some ((exBag.wireEncode).toOption.getD []), payloadKey := some [8, 8] }) }

/-- The name of a CK, its packet with the bits 5, 5, and a content that is encrypted with it. -/
def exCkName (n : UInt8) : Name := [comp 2, ck, comp n]
def exCk (n : UInt8) : Data :=
  { name := exCkName n ++ [encryptedBy] ++ kekName exKey
    content := some (Encrypt.encodeEncryptedContentV2 { payload := some [1, 1, 5, 5] }) }
def exContent (n : UInt8) : EncryptedContent :=
  { keyLocator := { type := some 1, keyName := exCkName n }, initialVector := some [4, 4], payload := some (Encryptor.exE.aes.encryptCbc [5, 5] [4, 4] [7, 8, 9]) }

def exD : DecParams :=
  { kc := exP
    credentials := [comp 3]
    aes := Encryptor.exE.aes
    credDecrypt := fun _ k => some k
    rsaDecrypt := fun p c => if p = 1 then some (c.drop 2) else none }

/-- Two calls for the same CK; one timeout; the CK packet, the KDK packet; and a third call. -/
def exDActs : List DAct :=
  [.decrypt (exContent 0) ok, .decrypt (exContent 0) ok, .timeout 1 ok, .data 2 (exCk 0) ok, .data 3 exKdk ok, .decrypt (exContent 0) ok]

theorem ex_untabled : UntabledD exDActs := by
  intro a ha e he
  simp only [exDActs, List.mem_cons, List.not_mem_nil, or_false] at ha
  rcases ha with rfl | rfl | rfl | rfl | rfl | rfl <;> cases he <;> exact (by nofun)

/-- The hypotheses of C69_once, C69_retrieved, C69_correct, C69_source and C69_bounded are met: all three calls succeed. -/
example : (∀ c, exD.raises c = false) ∧ UntabledD exDActs ∧ .retrieved (exCkName 0) [5, 5] ∈ (run exD exDActs).trace ∧
    ((run exD exDActs).trace.filter fun e => isAnswer 0 e || isAnswer 1 e || isAnswer 2 e) =
      [.success 0 [7, 8, 9], .success 1 [7, 8, 9], .success 2 [7, 8, 9]] ∧ interests (run exD exDActs).trace = 3 :=
  ⟨fun _ => rfl, ex_untabled, by decide +kernel, by decide +kernel, by decide +kernel⟩

/-- The hypotheses of C69_answered_partial are met by the second call, before the packets come. -/
example : .call 1 (exContent 0) ∈ (run exD (exDActs.take 4)).trace ∧ answers (run exD (exDActs.take 4)).trace 1 ≠ 1 := by decide +kernel

/-! ### Departures -/

/-- The answers to three calls, in the order of time. -/
def told (s : Decryptor) : List DEv := s.trace.filter fun e => isAnswer 0 e || isAnswer 1 e || isAnswer 2 e

theorem untabled_append {a b : List DAct} (ha : UntabledD a) (hb : UntabledD b) : UntabledD (a ++ b) := by
  intro x hx
  rcases List.mem_append.mp hx with hx | hx
  · exact ha x hx
  · exact hb x hx

/-- Two callers wait for a CK and a Nack comes: the first is told.  The second is never answered, nor is any later caller for this CK,
whatever happens: the decryptor does not ask again. -/
theorem C69_forgotten (more : List DAct) (hu : UntabledD more) :
    let s := run exD ([.decrypt (exContent 0) ok, .decrypt (exContent 0) ok, .nack 1] ++ more)
    answers s.trace 0 = 1 ∧ ∀ c x, .call c x ∈ s.trace → WellFormed x → ckOf x = exCkName 0 → c ≠ 0 → answers s.trace c = 0 := by
  intro s
  have h0 : UntabledD [.decrypt (exContent 0) ok, .decrypt (exContent 0) ok, .nack 1] := by
    intro a ha e he
    simp only [List.mem_cons, List.not_mem_nil, or_false] at ha
    rcases ha with rfl | rfl | rfl <;> cases he <;> exact (by nofun)
  have hw : WellFormed (exContent 0) := ⟨rfl, by nofun⟩
  have hu' := untabled_append h0 hu
  have hc : .call 0 (exContent 0) ∈ (run exD [.decrypt (exContent 0) ok, .decrypt (exContent 0) ok, .nack 1]).trace := by decide +kernel
  have ho : (run exD [.decrypt (exContent 0) ok, .decrypt (exContent 0) ok, .nack 1]).outstanding = [] := by decide +kernel
  have ht : (run exD [.decrypt (exContent 0) ok, .decrypt (exContent 0) ok, .nack 1]).trace =
      [.call 0 (exContent 0), .express 1 { name := exCkName 0, mustBeFresh := false, maxSuffix := none }, .call 1 (exContent 0), .error 0 .ckRetrievalFailure] := by
    decide +kernel
  obtain ⟨_, _, h3⟩ := C69_dead exD (fun _ => rfl) _ more hu' (n := exCkName 0) ⟨0, exContent 0, hc, hw, rfl⟩ (by rw [ht]; simp) (by rw [ho]; simp)
  obtain ⟨L, hL⟩ := run_trace exD [.decrypt (exContent 0) ok, .decrypt (exContent 0) ok, .nack 1] more
  refine ⟨?_, fun c x hcx hwx hx hne => ?_⟩
  · show answers (run exD _).trace 0 = 1
    rw [h3 0 (exContent 0) (by rw [hL]; exact List.mem_append_left _ hc) hw rfl, ht]
    decide +kernel
  · show answers (run exD _).trace c = 0
    rw [h3 c x hcx hwx hx, ht]
    simp only [answers, isAnswer, List.countP_cons, List.countP_nil, decide_eq_true_eq]
    simp only [Bool.false_eq_true, if_false, Nat.add_zero, Nat.zero_add]
    rw [if_neg fun e => hne e.symm]

/-- Two CKs that are encrypted with the same KEK are asked for at the same time: both ask for the KDK, the second import of it raises, and
the second caller is told that the decryption failed, although the decryptor has the key. -/
theorem C69_same_kdk : let s := run exD [.decrypt (exContent 0) ok, .decrypt (exContent 1) ok, .data 1 (exCk 0) ok, .data 2 (exCk 1) ok, .data 3 exKdk ok, .data 4 exKdk ok]
    told s = [.success 0 [7, 8, 9], .error 1 .decryptionFailure] ∧ (dictGet exKey s.kc.tpm).isSome = true ∧
    (run exD [.decrypt (exContent 0) ok, .data 1 (exCk 0) ok, .data 2 exKdk ok, .decrypt (exContent 1) ok, .data 3 (exCk 1) ok]).trace.getLast? =
      some (.success 1 [7, 8, 9]) := by decide +kernel

/-- If the onError of a waiting caller raises, those who wait after it are not answered, and the first, who was answered, is told of an error. -/
theorem C69_raising_callback : let bad : EncryptedContent := { exContent 0 with payload := some [] }
    let s := run { exD with raises := fun c => c = 1 }
      [.decrypt (exContent 0) ok, .decrypt bad ok, .decrypt (exContent 0) ok, .data 1 (exCk 0) ok, .data 2 exKdk ok]
    told s = [.success 0 [7, 8, 9], .error 1 .decryptionFailure, .error 0 .general] := by decide +kernel

/-- If `expressInterest` raises after it has put the Interest on its table, the caller is told of an error, and of the plain text when the
packets come. -/
theorem C69_express_raises : told (run exD [.decrypt (exContent 0) { express := .raises true }, .data 1 (exCk 0) ok, .data 2 exKdk ok]) =
    [.error 0 .general, .success 0 [7, 8, 9]] := by decide +kernel

/-- `shutdown` while a CK is being fetched: the caller is told; a later caller for this CK is not answered, and no Interest is sent for it,
although the decryptor can still be used for another CK. -/
theorem C69_after_shutdown : let s := run exD [.decrypt (exContent 0) ok, .shutdown, .decrypt (exContent 0) ok, .decrypt (exContent 1) ok, .data 2 (exCk 1) ok, .data 3 exKdk ok]
    told s = [.error 0 .ckRetrievalFailure, .success 2 [7, 8, 9]] ∧ s.outstanding = [] := by decide +kernel

end Decryptor
end Nac
end PyNDN
