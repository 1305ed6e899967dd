import Verif.Spec.SelfVerify
import Verif.Lemmas.ConfigPolicyTimes
/-
Lemmas for C88.
-/
namespace PyNDN.SelfVerify
open PyNDN PyNDN.Spec PyNDN.Spec.SelfVerify PyNDN.HmacSign PyNDN.ConfigPolicy

theorem keyName_iff {n k : Name} : publicKeyName n = .ok k ↔ IsKeyNameOf n k := by
  rw [publicKeyName_some]
  constructor
  · rintro ⟨a, b, c, d, h1, h2, h3, ⟨e, es, h4, h5, h6⟩, h7⟩
    exact ⟨a, b, c, e, es, by rw [h1, h4]; simp, h7, h2, h3, h5, h6⟩
  · rintro ⟨a, kc, b, ic, c, h1, h2, h3, h4, h5, h6⟩
    exact ⟨a, kc, b, ic :: c, by rw [h1]; simp, h3, h4, ⟨ic, c, rfl, h5, h6⟩, h2⟩

theorem names_iff {S : Store} {kl : KeyLocator} {der : Bytes} : getPublicKeyDer S kl = .ok (some der) ↔ Names S kl der := by
  cases S with
  | none =>
    constructor
    · intro h; cases h
    · rintro ⟨_, h⟩; exact h.elim
  | identity getKey =>
    constructor
    · intro h
      simp only [getPublicKeyDer] at h
      split at h
      · rename_i ht
        split at h
        · cases h
        · rename_i k hk
          split at h
          · rename_i d hg
            cases h
            exact ⟨ht, k, keyName_iff.mp hk, hg⟩
          · cases h
          · cases h
      · cases h
    · rintro ⟨ht, k, hk, hg⟩
      simp only [getPublicKeyDer]
      rw [if_pos ht, keyName_iff.mpr hk]
      simp only [hg]
  | pib getKeyBits =>
    constructor
    · intro h
      simp only [getPublicKeyDer] at h
      split at h
      · rename_i ht
        split at h
        · rename_i d hg
          cases h
          exact ⟨ht, hg⟩
        · cases h
        · cases h
      · cases h
    · rintro ⟨ht, hg⟩
      simp only [getPublicKeyDer]
      rw [if_pos ht]
      have hg : getKeyBits kl.keyName = .ok (some der) := hg
      rw [hg]

theorem keyed {S : Store} {C : Crypto} {sig : Signature} {m : Bytes} {kl : KeyLocator} (h1 : sig.info.keyLocator? = some kl)
    (h2 : ∀ d, verifySignature C sig m (some d) = C.verify m sig.signature d) :
    verify S C sig m = .ok true ↔ ∃ der, Names S kl der ∧ C.verify m sig.signature der = .ok true := by
  unfold verify
  rw [h1]
  dsimp only
  constructor
  · intro h
    split at h
    · cases h
    · cases h
    · rename_i der hd
      rw [h2] at h
      exact ⟨der, names_iff.mp hd, h⟩
  · rintro ⟨der, hn, hv⟩
    rw [names_iff.mpr hn]
    dsimp only
    rw [h2, hv]

theorem justified_iff {S : Store} {C : Crypto} {sig : Signature} {m : Bytes} : verify S C sig m = .ok true ↔ Justified S C sig m := by
  unfold Justified
  obtain ⟨info, bits⟩ := sig
  cases info with
  | rsa kl v =>
    rw [keyed (kl := kl) rfl (fun d => rfl)]
    constructor
    · rintro ⟨der, h1, h2⟩
      exact Or.inr ⟨kl, der, Or.inl ⟨v, rfl⟩, h1, h2⟩
    · rintro (⟨h, _⟩ | ⟨kl', der, ⟨v', h⟩ | ⟨v', h⟩, h1, h2⟩)
      · cases h
      · cases h; exact ⟨der, h1, h2⟩
      · cases h
  | ecdsa kl v =>
    rw [keyed (kl := kl) rfl (fun d => rfl)]
    constructor
    · rintro ⟨der, h1, h2⟩
      exact Or.inr ⟨kl, der, Or.inr ⟨v, rfl⟩, h1, h2⟩
    · rintro (⟨h, _⟩ | ⟨kl', der, ⟨v', h⟩ | ⟨v', h⟩, h1, h2⟩)
      · cases h
      · cases h
      · cases h; exact ⟨der, h1, h2⟩
  | hmac kl =>
    constructor
    · intro h
      unfold verify at h
      simp only [SigInfo.keyLocator?] at h
      split at h <;> cases h
    · rintro (⟨h, _⟩ | ⟨kl', der, ⟨v', h⟩ | ⟨v', h⟩, h1, h2⟩) <;> cases h
  | digest =>
    constructor
    · intro h
      have h : Except.ok (ε := Exn) (decide (bits = some (C.sha256 m))) = .ok true := h
      injection h with h
      exact Or.inl ⟨rfl, of_decide_eq_true h⟩
    · rintro (⟨_, h⟩ | ⟨kl', der, ⟨v', h⟩ | ⟨v', h⟩, h1, h2⟩)
      · show Except.ok (ε := Exn) (decide (bits = some (C.sha256 m))) = .ok true
        rw [decide_eq_true h]
      · cases h
      · cases h
  | generic enc tc =>
    constructor
    · intro h; cases h
    · rintro (⟨h, _⟩ | ⟨kl', der, ⟨v', h⟩ | ⟨v', h⟩, h1, h2⟩) <;> cases h

/-- With a known kind of signature and a storage that answers, there is an answer. -/
theorem verify_answers {S : Store} {C : Crypto} {sig : Signature} {m : Bytes} (hk : Known sig.info) (ha : Answers S C) :
    ∃ b, verify S C sig m = .ok b := by
  have key : ∀ kl, ∃ d, getPublicKeyDer S kl = .ok d := by
    intro kl
    obtain ⟨_, ha⟩ := ha
    cases S with
    | none => exact ⟨_, rfl⟩
    | identity getKey =>
      simp only [getPublicKeyDer]
      split
      · split
        · exact ⟨_, rfl⟩
        · split
          · exact ⟨_, rfl⟩
          · exact ⟨_, rfl⟩
          · rename_i k hk e h1 h2
            exact absurd (ha _ _ h2) (fun h => h1 h)
      · exact ⟨_, rfl⟩
    | pib getKeyBits =>
      simp only [getPublicKeyDer]
      split
      · split
        · exact ⟨_, rfl⟩
        · rename_i h; exact absurd h (ha _ _)
        · rename_i h; exact absurd h (ha _ _)
      · exact ⟨_, rfl⟩
  obtain ⟨info, bits⟩ := sig
  have hkl : ∀ kl, info.keyLocator? = some kl → (∀ d, verifySignature C ⟨info, bits⟩ m (some d) = C.verify m bits d) →
      ∃ b, verify S C ⟨info, bits⟩ m = .ok b := by
    intro kl h1 h2
    unfold verify
    rw [h1]
    dsimp only
    obtain ⟨d, hd⟩ := key kl
    rw [hd]
    cases d with
    | none => exact ⟨_, rfl⟩
    | some d =>
      dsimp only
      rw [h2]
      exact ha.1 _ _ _
  rcases hk with hk | ⟨kl, v, hk⟩ | ⟨kl, v, hk⟩ <;> dsimp only at hk <;> subst hk
  · exact ⟨_, rfl⟩
  · exact hkl kl rfl fun _ => rfl
  · exact hkl kl rfl fun _ => rfl

/-- Dropping the last component of a certificate name keeps the key name, if it is not the ID-CERT component. -/
theorem keyName_prefix {cert k : Name} (h : IsKeyNameOf cert k) (hl : ∀ c, cert.getLast? = some c → c.toEscapedString ≠ "ID-CERT".toList) :
    IsKeyNameOf cert.dropLast k := by
  obtain ⟨a, kc, b, ic, c, h1, h2, h3, h4, h5, h6⟩ := h
  rcases List.eq_nil_or_concat c with hc | ⟨c', x, hc⟩
  · subst hc
    rw [List.append_nil] at h1
    exact absurd h5 (hl ic (by rw [h1, List.getLast?_concat]))
  · subst hc
    refine ⟨a, kc, b, ic, c', ?_, h2, h3, h4, h5, fun y hy => h6 y (by simp [hy])⟩
    rw [h1, List.concat_eq_append, ← List.append_assoc, List.dropLast_concat]

end PyNDN.SelfVerify
