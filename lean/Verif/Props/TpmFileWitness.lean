import Verif.Props.TpmFile
import Verif.Props.PrivateKeyWitness
/-
C73: examples, and where the code departs.
-/
namespace PyNDN.TpmFile
open Spec.TpmFile (Storable Distinct Fine Keys)

/-- An RSAPrivateKey with the version 0, seven zeros, and the number of the key. -/
def exPkcs1 (k : Nat) : Bytes := [48, 27, 2, 1, 0, 2, 1, 0, 2, 1, 0, 2, 1, 0, 2, 1, 0, 2, 1, 0, 2, 1, 0, 2, 1, 0, 2, 1, UInt8.ofNat k]

def exPkcs8 (k : Nat) : Bytes := [48, 49, 2, 1, 0, 48, 13, 6, 9, 42, 134, 72, 134, 247, 13, 1, 1, 1, 5, 0, 4, 29] ++ exPkcs1 k

/-- A library that loads PKCS #1 of 29 bytes and PKCS #8 of 51 bytes; the hash is the identity. -/
def exP : Params where
  lib := { PrivateKey.exL with
    pkcs8 := exPkcs8
    load := fun b => if b.length = 29 ∨ b.length = 51 then b.getLast?.map (·.toNat) else none }
  sha256 b := b
  publicKey k := [UInt8.ofNat k]

def exKey : PrivateKey.Key := ⟨77, .rsa⟩

theorem exStorable : Storable exP exKey := ⟨exPkcs1 77, by decide +kernel, by decide +kernel⟩

def exA : Name := [.generic [65], .generic [75, 69, 89], .generic [1]]
def exB : Name := [.generic [66], .generic [75, 69, 89], .generic [2]]

theorem exDistinct : Distinct exP fun n => n = exA ∨ n = exB := by
  refine ⟨?_, fun n m _ _ h => h⟩
  rintro n (rfl | rfl)
  · exact ⟨by unfold Spec.CanonicalName; decide, by decide⟩
  · exact ⟨by unfold Spec.CanonicalName; decide, by decide⟩

/-- Create a key, import another, export and delete. -/
def exOps : List Op :=
  [.create [.generic [65]] (.user (.generic [1])) (some exKey), .has exA, .import_ exB (exPkcs8 78) none, .get exB,
   .create [.generic [65]] (.user (.generic [1])) (some exKey), .export_ exA none [] [], .delete exA, .has exA, .get exB]

example : (run exP [] exOps).1 = [.name exA, .bool true, .none, .key (some ⟨78, .rsa⟩), .error .tpm, .bytes (exPkcs8 77), .none, .bool false,
    .key (some ⟨78, .rsa⟩)] := by decide +kernel

theorem exFine : ∀ op ∈ exOps, Fine exP (fun n => n = exA ∨ n = exB) op := by
  have h8 : PrivateKey.importKey exP.lib (exPkcs8 78) none = .ok ⟨78, .rsa⟩ := by decide +kernel
  intro op h
  simp only [exOps, List.mem_cons, List.not_mem_nil, or_false] at h
  rcases h with rfl | rfl | rfl | rfl | rfl | rfl | rfl | rfl | rfl
  · exact ⟨fun k hk => by cases hk; exact exStorable, .inl rfl⟩
  · exact .inl rfl
  · refine ⟨.inr rfl, fun k hk => ?_⟩
    rw [h8] at hk
    cases hk
    exact ⟨exPkcs1 78, by decide +kernel, by decide +kernel⟩
  · exact .inr rfl
  · exact ⟨fun k hk => by cases hk; exact exStorable, .inl rfl⟩
  · exact .inl rfl
  · exact .inl rfl
  · exact .inl rfl
  · exact .inr rfl

example : (run exP [] exOps).1 = (Spec.TpmFile.run exP (fun _ => none) exOps).1 := C73_map exDistinct exOps exFine

/-- The text of the key: 40 characters and a newline. -/
def exText : List Nat := base64Encode (exPkcs1 77) true

example : exText = "MBsCAQACAQACAQACAQACAQACAQACAQACAQACAU0=\n".toList.map (·.toNat) := by decide +kernel

/-- C73, a departure: if the process is killed while it writes the file of a key, then `hasKey`, `getKeyHandle`, `importKey` and
`createKey` for this name raise ValueError (binascii.Error) from then on, where the documentation has False, None and TpmBackEnd.Error; only
`deleteKey` helps. -/
theorem C73_damaged :
    let d := crashed exP [] exA exText 10
    hasKey exP d exA = .error .value ∧ getKeyHandle exP d exA = .error .value ∧
    (importKey exP d exA (exPkcs8 77) none).toOption = none ∧ (step exP d (.import_ exA (exPkcs8 77) none)).1 = .error .value ∧
    (step exP d (.create [.generic [65]] (.user (.generic [1])) (some exKey))).1 = .error .value ∧
    (step exP (deleteKey exP d exA) (.import_ exA (exPkcs8 77) none)).1 = .none := by decide +kernel

/-- After 12 characters the text is a whole number of groups: the key is not there. -/
example : hasKey exP (crashed exP [] exA exText 12) exA = .ok false ∧ hasKey exP (crashed exP [] exA exText 40) exA = .ok true := by
  decide +kernel

/-- C73, a departure: a key id from the hash of the public key is not checked, so that the key of this name is replaced without an error. -/
theorem C73_replaced : (run exP [] [.create [.generic [65]] .sha256 (some exKey), .create [.generic [65]] .sha256 (some ⟨333, .rsa⟩)]).1 =
    [.name [.generic [65], .generic [75, 69, 89], .generic [77]], .name [.generic [65], .generic [75, 69, 89], .generic [77]]] := by
  decide +kernel

end PyNDN.TpmFile
