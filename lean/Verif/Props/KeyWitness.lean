import Verif.Props.KeyDelete
/-
Where the key chain departs from what one would expect, so that C64, C65 and C66 need their hypotheses.
-/
namespace PyNDN
namespace KeyChain
open PSync (dictGet dictSet dictDel dictGet_none dictGet_some)
open Spec
open Spec.KeyChain

/-- C64: a key that is not the default key is deleted: the stored PIB forgets the default key of the identity, and the identity object
still has it.  So a new KeyChain with the same PIB gives another answer. -/
theorem C64_default_key_forgotten :
    let ops := exOps ++ [.getDefaultKey 0, .deleteKey 0 1]
    dictGet exA (run exP exOps).store.defaultKeys = some exKey ∧
    (ask exP (.defaultKey exA) (run exP ops)).1 = .ok (.key exKey [1, 1]) ∧
    (ask exP (.defaultKey exA) (run exP (ops ++ [.restart]))).1 = .error .pib ∧
    Disciplined false exP ops ∧ ¬ Disciplined true exP ops := by
  have hl : LiveId (run exP (exOps ++ [.getDefaultKey 0])) exA 0 := by unfold LiveId; decide +kernel
  have hk : LiveKey (run exP (exOps ++ [.getDefaultKey 0])) (constructKeyName exA (exK 2)) 1 :=
    ⟨exA, 0, _, hl, (by decide +kernel : (run exP (exOps ++ [.getDefaultKey 0])).ids[0]? = some ((run exP (exOps ++ [.getDefaultKey 0])).ids[0]?.getD { name := [] })), by decide +kernel⟩
  have h1 : (ask exP (.defaultKey exA) (run exP (exOps ++ [.getDefaultKey 0, .deleteKey 0 1]))).1 = .ok (.key exKey [1, 1]) := by decide +kernel
  have h2 : (ask exP (.defaultKey exA) (run exP (exOps ++ [.getDefaultKey 0, .deleteKey 0 1] ++ [.restart]))).1 = .error .pib := by decide +kernel
  refine ⟨by decide +kernel, h1, h2, ?_, fun h => ?_⟩
  · have hf : Disciplined false exP exOps := by
      intro a op b e
      have := exDisciplined a op b e
      have he := e
      revert this
      rcases a with _ | ⟨x, _ | ⟨y, _ | ⟨z, _ | ⟨w, a⟩⟩⟩⟩
      · cases e; exact fun h => h
      · cases e; exact fun h => h
      · cases e; exact fun h => h
      · nomatch e
      · nomatch e
    have hl0 : LiveId (run exP exOps) exA 0 := exLiveA
    exact disciplined_add (ops := exOps ++ [.getDefaultKey 0]) (op := .deleteKey 0 1) (disciplined_add (op := .getDefaultKey 0) hf ⟨exA, hl0⟩) ⟨⟨exA, hl⟩, _, hk, fun h => nomatch h⟩
  · have := C64_restart exP exSound _ (.defaultKey exA) true h (.inl rfl)
    rw [h1, h2] at this
    nomatch this

/-- A certificate with the name of `exCert`, and other content. -/
def exCert2 : Data := { exCert with metaInfo := { exCert.metaInfo with freshnessPeriod := some 1 } }

/-- C64: the default certificate is replaced by another one with the same name: the key object still has the old one as the default
certificate, and the PIB has the new one. -/
theorem C64_default_certificate_stale :
    let ops := exOps ++ [.setDefaultCertificate 0 exCert, .addCertificate 0 exCert2]
    (ask exP (.defaultCert exA exKey) (run exP ops)).1 = .ok (.cert exCert) ∧ (ask exP (.cert exA exKey exCert.name) (run exP ops)).1 = .ok (.cert exCert2) ∧
    (ask exP (.defaultCert exA exKey) (run exP (ops ++ [.restart]))).1 = .ok (.cert exCert2) := by decide +kernel

/-- C64: `createIdentityV2` of an identity that is there, with a default key without a certificate, raises TypeError: it writes to the
log. -/
theorem C64_create_identity_raises :
    let c := (dictGet exKey (run exP exOps).store.defaultCerts).getD []
    (perform exP (.createIdentity exA (exGen 9)) (run exP (exOps ++ [.deleteCertificate 0 c]))).1 = .error (.py .type) := by decide +kernel

/-- C64: `createIdentityV2` of the empty name raises ValueError.  The identity stays, without a key, and the private key that was made stays
in the TPM. -/
theorem C64_create_empty_identity :
    (perform exP (.createIdentity [] (exGen 9)) {}).1 = .error (.py .value) ∧ (run exP [.createIdentity [] (exGen 9)]).store.identities = [[]] ∧
    (run exP [.createIdentity [] (exGen 9)]).tpm = [(constructKeyName [] (exK 9), 9)] ∧ (run exP [.createIdentity [] (exGen 9)]).store.keys = [] := by
  decide +kernel

/-- C64: `createIdentityV2` of an identity that is there does not make it the default identity, also if there is none. -/
theorem C64_no_default_identity :
    (perform exP (.createIdentity exB (exGen 9)) (run exP (exOps ++ [.deleteIdentity 0]))).1 = .ok (.identity 1) ∧
    (ask exP .defaultIdentity (run exP (exOps ++ [.deleteIdentity 0, .createIdentity exB (exGen 9)]))).1 = .error .pib := by decide +kernel

/-- C65: a key object that was kept after `deleteKey` brings the key back with `addCertificate`, without the private key; then `sign`
with this key returns, and the packet has no signature. -/
theorem C65_revived_key :
    let ops := exOps ++ [.deleteKey 0 0, .addCertificate 0 exCert]
    (perform exP (.addCertificate 0 exCert) (run exP (exOps ++ [.deleteKey 0 0]))).1 = .ok .none ∧
    (ask exP (.key exA exKey) (run exP ops)).1 = .ok (.key exKey [1, 1]) ∧ dictGet exKey (run exP ops).tpm = none ∧
    ∃ d, (perform exP (.sign exData { signer := .key exKey none } 0) (run exP ops)).1 = .ok (.data d) ∧ d.signature.signature = none := by
  refine ⟨by decide +kernel, by decide +kernel, by decide +kernel, ?_⟩
  let d : Data := { exData with signature := { info := .rsa { type := some 1, keyName := exKey } none, signature := none } }
  exact ⟨d, by decide +kernel, rfl⟩

/-- C66: `deleteIdentity` in a new KeyChain, where the keys of the identity were not used yet: the private keys stay in the TPM. -/
theorem C66_private_keys_stay :
    let ops := exOps ++ [.restart, .deleteIdentityByName exA]
    (perform exP (.deleteIdentityByName exA) (run exP (exOps ++ [.restart]))).1 = .ok .none ∧
    (ask exP (.identity exA) (run exP ops)).1 = .error .pib ∧ dictGet exKey (run exP ops).tpm = some 1 := by decide +kernel

end KeyChain
end PyNDN
