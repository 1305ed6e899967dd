import Verif.Props.PrivateKey
import Verif.Model.KeyChain
/-
C72: the link with the KeyChain, examples, and where the code departs.
-/
namespace PyNDN.PrivateKey
open Der Spec.Der
open Spec.PrivateKey (IsInfo IsEncryptedInfo IsRsaKey IsPadded algorithmOf Sound)

/-- C72: the assumption of the KeyChain about `wrap` and `unwrap` (exportSafeBag and importSafeBag) holds for the keys of this back end. -/
theorem C72_keychain {L : Lib} {salt iv : Bytes} (h1 : salt.length = 8) (h2 : iv.length = 8) (P : KeyChain.Params) (typeOf : Nat → KeyType)
    (hw : ∀ p password b, exportKey L salt iv ⟨p, typeOf p⟩ password = .ok b → P.wrap p password = b)
    (hu : ∀ b password k, importKey L b password = .ok k → P.unwrap b password = some k.key) {p : Nat} (hs : Sound L ⟨p, typeOf p⟩)
    (password : Option Bytes) : P.unwrap (P.wrap p password) password = some p := by
  obtain ⟨b, h3, h4⟩ := C72_roundtrip hs h1 h2 password
  rw [hw p password b h3]
  exact hu b password _ h4

/-! ### An example -/

/-- The contents of the OID for RSA. -/
def exOid : Bytes := [42, 134, 72, 134, 247, 13, 1, 1, 1]

theorem exOid_is : IsOid Spec.PrivateKey.rsa exOid := by
  obtain ⟨c, h1, h2⟩ := oid_spec 1 2 [840, 113549, 1, 1, 1] (by omega) (by omega)
  have h3 : oid (([1, 2, 840, 113549, 1, 1, 1] : List Nat).map fun n : Nat => (n : Int)) = .ok (prim 6 exOid) := by
    have e : (match oid (([1, 2, 840, 113549, 1, 1, 1] : List Nat).map fun n : Nat => (n : Int)) with
      | .ok (.leaf _ _ p) => some p
      | _ => none) = some exOid := by decide +kernel
    rw [h1] at e ⊢
    injection e with e
    rw [e]
  rw [h1] at h3
  injection h3 with h3
  injection h3 with _ _ h3
  exact h3 ▸ h2

/-- A PrivateKeyInfo with one byte for the private key. -/
def exTree (k : Nat) : Tree := .seq [.prim 2 [0], .seq [.prim 6 exOid, .prim 5 []], .prim 4 [UInt8.ofNat k]]

def exPkcs8 (k : Nat) : Bytes := [48, 21, 2, 1, 0, 48, 13, 6, 9, 42, 134, 72, 134, 247, 13, 1, 1, 1, 5, 0, 4, 1, UInt8.ofNat k]

theorem exKnown (k : Nat) : Known (exTree k) := by
  refine known_of _ ?_ ?_
  · refine ⟨?_, ⟨?_, ?_, trivial⟩, ?_, trivial⟩ <;> exact List.contains_iff_mem.mp rfl
  · have big : (2 : Nat) ^ 80 ≤ 256 ^ 126 := by decide
    have e : (der (exTree k)).length = 23 := rfl
    omega

theorem exDer (k : Nat) : IsDer (exTree k) (exPkcs8 k) := isDer_der _ (exKnown k)

/-- A library whose keys are the numbers up to 255: the encryption adds the first byte of the password to each byte. -/
def exL : Lib where
  load b := b.getLast?.map (·.toNat)
  pkcs8 := exPkcs8
  pbkdf2 _ _ password := some (List.replicate 24 (password.headD 0))
  encrypt d _ p := some (p.map (· + d.headD 0))
  decrypt d iv c := match iv, c with
    | .bytes _, .bytes c => some (c.map (· - d.headD 0))
    | _, _ => none

theorem exSound (k : Nat) (h : k < 256) : Sound exL ⟨k, .rsa⟩ where
  type := .inl rfl
  info := ⟨exTree k, [UInt8.ofNat k], .mk _ [.prim 5 []] [] exOid_is, exKnown k, exDer k⟩
  size := by show (23 : Nat) < 2 ^ 64; omega
  load := by
    show some (UInt8.ofNat k).toNat = some k
    rw [UInt8.toNat_ofNat', Nat.mod_eq_of_lt h]
  derive salt password _ := ⟨_, rfl, List.length_replicate⟩
  cipher d iv p _ _ _ := by
    refine ⟨_, rfl, List.length_map _, ?_⟩
    show some ((p.map (· + d.headD 0)).map (· - d.headD 0)) = some p
    rw [List.map_map]
    congr 1
    conv_rhs => rw [← List.map_id p]
    congr 1
    funext x
    show x + d.headD 0 - d.headD 0 = x
    rw [UInt8.add_sub_cancel]

example : ∃ b, exportKey exL (List.replicate 8 1) (List.replicate 8 2) ⟨200, .rsa⟩ (some [112, 119]) = .ok b ∧
    importKey exL b (some [112, 119]) = .ok ⟨200, .rsa⟩ := C72_roundtrip (exSound 200 (by omega)) rfl rfl _

/-- The number of bytes; with another password the key is not loaded. -/
example : ((exportKey exL (List.replicate 8 1) (List.replicate 8 2) ⟨200, .rsa⟩ (some [112, 119])).toOption.map fun b =>
    (b.length, importKey exL b (some [120]), importKey exL b (some [112]))) = some (102, .error .tpm, .ok ⟨200, .rsa⟩) := by decide +kernel

/-- The RSAPrivateKey with the version 0 and the numbers 1 to 8. -/
example : IsRsaKey (.seq (.prim 2 [0] :: [[1], [2], [3], [4], [5], [6], [7], [8]].map (.prim 2))) :=
  ⟨[0], _, rfl, ⟨rfl, 0, [], rfl, by decide, fun _ _ _ h => nomatch h⟩, rfl⟩

example : loadPkcs1 exL [48, 27, 2, 1, 0, 2, 1, 1, 2, 1, 2, 2, 1, 3, 2, 1, 4, 2, 1, 5, 2, 1, 6, 2, 1, 7, 2, 1, 8] none = .ok ⟨8, .rsa⟩ ∧
    loadPkcs1 exL [48, 5, 2, 1, 1, 160, 0] none = .ok ⟨0, .ec⟩ ∧ parse [48, 5, 2, 1, 1, 160, 0] = .error .decoding :=
  ⟨by decide +kernel, by decide +kernel, by rfl⟩

/-! ### Where the code departs -/

/-- C72, a departure: `loadPkcs1` is documented to raise TpmPrivateKey.Error, but raises IndexError for bytes that end after the tag. -/
theorem C72_index_error (L : Lib) : loadPkcs1 L [48] none = .error .index := rfl

/-- C72, a departure: `loadEncryptedPkcs8` is documented to raise TpmPrivateKey.Error, but raises TypeError if there is an INTEGER in the
place of the algorithm. -/
theorem C72_type_error (L : Lib) (password : Bytes) :
    loadEncryptedPkcs8 L [48, 10, 48, 5, 2, 1, 5, 5, 0, 4, 1, 7] password = .error .type := by rfl

/-- C72, a departure: what the `cryptography` package raises is not turned into TpmPrivateKey.Error, though the PrivateKeyInfo is well formed and
only the private key in it is wrong. -/
theorem C72_library_error (k : Nat) : loadPkcs8 { exL with load := fun _ => none } (exPkcs8 k) none = .error .library :=
  (((C72_load_pkcs8 _ (by omega) (.mk (.prim 2 [0]) [.prim 5 []] [] exOid_is) (exKnown k) (exDer k)).1 .rsa (.inl rfl) rfl).2 rfl)

/-- The PBKDF2 parameters with the pseudorandom function HMAC with SHA256 (1.2.840.113549.2.9), as OpenSSL writes them. -/
def sha256Options : List Tree := [.seq [.prim 6 [42, 134, 72, 134, 247, 13, 2, 9], .prim 5 []]]

/-- C72, a departure: a key that was encrypted with HMAC and SHA256 is decrypted with the key of HMAC and SHA1, so that it is not loaded: the
result is the same as if the function were not given. -/
theorem C72_prf_ignored (L : Lib) {salt iv encrypted bytes bytes' padded pkcs8 password d : Bytes} {n : Nat} {t t' : Tree}
    (h : IsEncryptedInfo salt n sha256Options iv encrypted t) (h' : IsEncryptedInfo salt n [] iv encrypted t') (hk : Known t) (hk' : Known t')
    (hd : IsDer t bytes) (hd' : IsDer t' bytes') (h1 : L.pbkdf2 (.bytes salt) (.int n) password = some d)
    (h2 : L.decrypt d (.bytes iv) (.bytes encrypted) = some padded) (h3 : IsPadded pkcs8 padded) :
    loadEncryptedPkcs8 L bytes password = loadEncryptedPkcs8 L bytes' password := by
  rw [((C72_load_encrypted_partial L h hk hd password).2 d h1).2 _ _ h2 h3, ((C72_load_encrypted_partial L h' hk' hd' password).2 d h1).2 _ _ h2 h3]

end PyNDN.PrivateKey
