import Verif.Lemmas.IdentityStorageMem
import Verif.Lemmas.NameUri
/-
C86: the storages of identities, keys and certificates of security v1.
-/
namespace PyNDN.IdentityStorage
open PyNDN PyNDN.Spec PyNDN.Spec.IdentityStorage

/-- Whatever the calls, `BasicIdentityStorage` answers as specified, for names with generic components and key ids without escapes. -/
theorem C86_basic_partial (ops : List Op) (h : ∀ o ∈ ops, Fine o) : (DB.run {} ops).1 = answers {} ops := run_ok ops empty_rep h

/-- The same for `MemoryIdentityStorage`, while nothing is deleted and what is made a default is known. -/
theorem C86_memory_partial (ops : List Op) (h : ∀ o ∈ ops, Fine o) (hs : Simple {} ops) : (Mem.run {} ops).1 = answers {} ops :=
  mem_run_ok ops empty_mrep h hs

/-- So the two storages cannot be told apart. -/
theorem C86_same_partial (ops : List Op) (h : ∀ o ∈ ops, Fine o) (hs : Simple {} ops) : (Mem.run {} ops).1 = (DB.run {} ops).1 := by
  rw [C86_basic_partial ops h, C86_memory_partial ops h hs]

/-! ### New key names -/

theorem strDec_inj {a b : Nat} (h : strDec a = strDec b) : a = b := by
  have h1 := parseInt_strDec a
  rw [h, parseInt_strDec b] at h1
  injection h1 with h1
  exact (Int.ofNat_inj.mp h1).symm

/-- The text of a key id. -/
def keyIdText (useKsk : Bool) (t : Nat) : Str := (if useKsk then "ksk-" else "dsk-").toList ++ strDec t

/-- The characters of a key id. -/
def KeyIdChar (c : Char) : Prop := c = 'k' ∨ c = 's' ∨ c = 'd' ∨ c = '-' ∨ isDigit c

theorem keyId_chars {u : Bool} {t : Nat} : ∀ c ∈ keyIdText u t, KeyIdChar c := by
  intro c hc
  unfold keyIdText at hc
  rcases List.mem_append.mp hc with h | h
  · cases u
    · have : c ∈ ['d', 's', 'k', '-'] := h
      simp at this
      unfold KeyIdChar
      rcases this with h | h | h | h <;> simp [h]
    · have : c ∈ ['k', 's', 'k', '-'] := h
      simp at this
      unfold KeyIdChar
      rcases this with h | h | h | h <;> simp [h]
  · exact .inr (.inr (.inr (.inr (strDec_digits t c h))))

theorem keyIdChar_nat {c : Char} (h : KeyIdChar c) : c.toNat < 128 ∧ isUnreserved (UInt8.ofNat c.toNat) = true ∧ c.toNat ≠ 46 := by
  rcases h with rfl | rfl | rfl | rfl | h
  · decide
  · decide
  · decide
  · decide
  · unfold isDigit at h
    have h1 : 48 ≤ c.toNat ∧ c.toNat ≤ 57 := h
    have : ∀ x : Fin 58, 48 ≤ x.val → isUnreserved (UInt8.ofNat x.val) = true := by decide
    exact ⟨by omega, this ⟨c.toNat, by omega⟩ h1.1, by omega⟩

theorem char_back {c : Char} (h : c.toNat < 128) : Char.ofNat (UInt8.ofNat c.toNat).toNat = c := by
  rw [UInt8.toNat_ofNat', Nat.mod_eq_of_lt (by omega)]
  exact Char.ofNat_toNat c

/-- The text of a component with such characters is the characters. -/
theorem escape_keyId {s : Str} (hne : s ≠ []) (h : ∀ c ∈ s, KeyIdChar c) : escapeValue (s.map fun c => UInt8.ofNat c.toNat) = s := by
  unfold escapeValue
  rw [if_neg]
  · have key : ∀ s : Str, (∀ c ∈ s, KeyIdChar c) → ((s.map fun c => UInt8.ofNat c.toNat).flatMap fun x =>
        if isUnreserved x then [Char.ofNat x.toNat] else '%' :: hex2 true x) = s := by
      intro s
      induction s with
      | nil => exact fun _ => rfl
      | cons c s ih =>
        intro h
        have h1 := keyIdChar_nat (h c (by simp))
        rw [List.map_cons, List.flatMap_cons, if_pos h1.2.1, char_back h1.1, ih fun c hc => h c (by simp [hc])]
        rfl
    exact key s h
  · intro ha
    cases s with
    | nil => exact hne rfl
    | cons c s =>
      have h1 := keyIdChar_nat (h c (by simp))
      rw [List.map_cons, List.all_cons, Bool.and_eq_true] at ha
      have h2 : UInt8.ofNat c.toNat = 0x2e := by simpa using ha.1
      have h3 := congrArg UInt8.toNat h2
      rw [UInt8.toNat_ofNat', Nat.mod_eq_of_lt (by omega)] at h3
      exact h1.2.2 h3

theorem keyIdText_ne {u : Bool} {t : Nat} : keyIdText u t ≠ [] := by cases u <;> simp [keyIdText]

theorem keyIdText_inj {u v : Bool} {a b : Nat} (h : keyIdText u a = keyIdText v b) : a = b := by
  unfold keyIdText at h
  refine strDec_inj (List.append_inj_right h ?_)
  cases u <;> cases v <;> rfl

theorem newKey_ok {last now : Nat} {i : Name} {u : Bool} {hasKey : Name → Bool} {n : Name}
    (h : (getNewKeyName last now i u hasKey).2 = .ok n) :
    n = appendText i (keyIdText u (getNewKeyName last now i u hasKey).1) ∧ hasKey n = false := by
  replace h : (if hasKey (appendText i (keyIdText u (max (now / 1000) (last + 1)))) = true then Except.error Error.security
    else .ok (appendText i (keyIdText u (max (now / 1000) (last + 1))))) = .ok n := h
  show n = appendText i (keyIdText u (max (now / 1000) (last + 1))) ∧ _
  generalize appendText i (keyIdText u (max (now / 1000) (last + 1))) = m at h
  split at h
  · cases h
  · rename_i hk
    injection h with h
    exact ⟨h.symm, by rw [← h]; simpa using hk⟩

theorem newKey_time (last now : Nat) (i : Name) (u : Bool) (hasKey : Name → Bool) : last < (getNewKeyName last now i u hasKey).1 := by
  show last < max (now / 1000) (last + 1)
  omega

/-- A new key name is the identity with one more component, it can be used with the storage, and there is no such key yet. -/
theorem C86_new_key_fine (last now : Nat) (i : Name) (u : Bool) (hasKey : Name → Bool) (n : Name) (hi : Generic i)
    (h : (getNewKeyName last now i u hasKey).2 = .ok n) : KeyName n ∧ n.dropLast = i ∧ hasKey n = false := by
  obtain ⟨h1, h2⟩ := newKey_ok h
  refine ⟨?_, ?_, h2⟩
  · rw [h1]
    unfold appendText
    refine ⟨fun c hc => ?_, _, List.getLast?_concat, ?_⟩
    · rcases List.mem_append.mp hc with h | h
      · exact hi c h
      · rw [List.mem_singleton.mp h]
    · show _ = List.map _ (escapeValue _)
      rw [escape_keyId keyIdText_ne keyId_chars]
  · rw [h1]
    exact List.dropLast_concat

theorem newKeys_later (cs : List NewKey) : ∀ {last : Nat} {r : Except Error Name} {n : Name}, r ∈ newKeys last cs → r = .ok n →
    ∃ i u t, n = appendText i (keyIdText u t) ∧ last < t := by
  induction cs with
  | nil => exact fun h => by cases h
  | cons c cs ih =>
    intro last r n h hr
    unfold newKeys at h
    rcases List.mem_cons.mp h with h | h
    · rw [hr] at h
      exact ⟨_, _, _, (newKey_ok h.symm).1, newKey_time _ _ _ _ _⟩
    · obtain ⟨i, u, t, h1, h2⟩ := ih h hr
      exact ⟨i, u, t, h1, Nat.lt_trans (newKey_time _ _ _ _ _) h2⟩

/-- The new key names of a storage are different from each other, for any identities, and whatever the clock does. -/
theorem C86_new_keys_differ (last : Nat) (cs : List NewKey) : (newKeys last cs).Pairwise fun a b => ∀ n, a = .ok n → b ≠ .ok n := by
  induction cs generalizing last with
  | nil => exact List.Pairwise.nil
  | cons c cs ih =>
    unfold newKeys
    refine List.pairwise_cons.mpr ⟨fun b hb n h1 h2 => ?_, ih _⟩
    obtain ⟨i, u, t, h3, h4⟩ := newKeys_later cs hb h2
    have h5 := (newKey_ok h1).1
    rw [h3] at h5
    unfold appendText at h5
    have h6 := (List.append_inj' h5 rfl).2
    injection h6 with h6
    injection h6 with _ h6
    have h7 := congrArg escapeValue h6
    rw [escape_keyId keyIdText_ne keyId_chars, escape_keyId keyIdText_ne keyId_chars] at h7
    rw [keyIdText_inj h7] at h4
    exact Nat.lt_irrefl _ h4

/-! ### Concrete histories -/

def c86A : Name := [⟨.generic, [97]⟩]
def c86Key (b : UInt8) : Name := c86A ++ [⟨.generic, [b]⟩]
def c86Cert (b : UInt8) : Cert := ⟨c86A ++ [⟨.generic, [b]⟩, ⟨.generic, [99]⟩], c86Key b, [b, 1], [b, 2]⟩

theorem c86_keyName {b : UInt8} (h : [b] = (escapeValue [b]).map fun x => UInt8.ofNat x.toNat) : KeyName (c86Key b) := by
  refine ⟨fun c hc => ?_, ⟨.generic, [b]⟩, rfl, h⟩
  have : c ∈ [(⟨.generic, [97]⟩ : Component), ⟨.generic, [b]⟩] := hc
  simp at this
  rcases this with rfl | rfl <;> rfl

theorem c86_generic : Generic c86A := by
  intro c hc
  rw [List.mem_singleton.mp hc]

/-- A history with the hypotheses of the theorems. -/
def c86Ops : List Op := [.addKey (c86Key 49) [7], .addKey (c86Key 49) [8], .getKey (c86Key 49), .setDefaultIdentity c86A, .getDefaultIdentity,
  .setDefaultKeyNameForIdentity (c86Key 49) none, .getDefaultKeyNameForIdentity c86A, .getDefaultCertificateNameForKey (c86Key 49)]

example : (∀ o ∈ c86Ops, Fine o) ∧ Simple {} c86Ops ∧
    (Mem.run {} c86Ops).1 = [.none, .none, .bytes [7], .none, .name c86A, .none, .name (c86Key 49), .raised .security] := by
  have h := c86_keyName (b := 49) (by decide +kernel)
  refine ⟨?_, ?_, by decide +kernel⟩
  · intro o ho
    simp only [c86Ops, List.mem_cons, List.not_mem_nil, or_false] at ho
    rcases ho with rfl | rfl | rfl | rfl | rfl | rfl | rfl | rfl <;> first | exact h | exact c86_generic | trivial
  · simp [c86Ops, Simple, after, addKey, c86Key]

example : (newKeys 5 [⟨9000, c86A, true, fun _ => false⟩, ⟨8000, c86A, true, fun _ => false⟩]).map
    (fun r => match r with | .ok n => uriOf n | .error _ => []) = ["/a/ksk-9".toList, "/a/ksk-10".toList] := by decide +kernel

/-! ### Departures -/

/-- If the key id has an escaped character, the default key's name is another name, which is not the name of a key. -/
theorem C86_escaped_key_id :
    (DB.run {} [.addKey (c86Key 32) [7], .setDefaultKeyNameForIdentity (c86Key 32) none, .getDefaultKeyNameForIdentity c86A,
      .getKey (c86A ++ [⟨.generic, [37, 50, 48]⟩])]).1 =
      [.none, .none, .name (c86A ++ [⟨.generic, [37, 50, 48]⟩]), .raised .security] ∧
    (Mem.run {} [.addKey (c86Key 32) [7], .setDefaultKeyNameForIdentity (c86Key 32) none, .getDefaultKeyNameForIdentity c86A]).1 =
      [.none, .none, .name (c86Key 32)] := by decide +kernel

/-- In memory a key that does not exist can be the default; in the database it is not, and the default is lost. -/
theorem C86_unknown_default_key :
    (Mem.run {} [.addKey (c86Key 49) [7], .setDefaultKeyNameForIdentity (c86Key 50) none, .getDefaultKeyNameForIdentity c86A]).1 =
      [.none, .none, .name (c86Key 50)] ∧
    (DB.run {} [.addKey (c86Key 49) [7], .setDefaultKeyNameForIdentity (c86Key 49) none, .setDefaultKeyNameForIdentity (c86Key 50) none,
      .getDefaultKeyNameForIdentity c86A]).1 = [.none, .none, .none, .raised .security] := by decide +kernel

/-- In memory the certificate of another key can be the default certificate of a key. -/
theorem C86_other_default_certificate :
    (Mem.run {} [.addCertificate (c86Cert 49), .addCertificate (c86Cert 50), .setDefaultCertificateNameForKey (c86Key 49) (c86Cert 50).name,
      .getDefaultCertificateNameForKey (c86Key 49)]).1 = [.none, .none, .none, .name (c86Cert 50).name] ∧
    (DB.run {} [.addCertificate (c86Cert 49), .addCertificate (c86Cert 50), .setDefaultCertificateNameForKey (c86Key 49) (c86Cert 50).name,
      .getDefaultCertificateNameForKey (c86Key 49)]).1 = [.none, .none, .none, .raised .security] := by decide +kernel

/-- Nothing can be deleted from the storage in memory. -/
theorem C86_memory_no_delete (m : Mem) (n : Name) : (m.call (.deletePublicKeyInfo n)).2 = .raised .runtime ∧
    (m.call (.deleteCertificateInfo n)).2 = .raised .runtime ∧ (m.call (.deleteIdentityInfo n)).2 = .raised .runtime := ⟨rfl, rfl, rfl⟩

/-- A certificate can be added after its key has been added with other bits: then the key is not the one in the certificate. -/
theorem C86_certificate_other_key :
    (DB.run {} [.addKey (c86Key 49) [7], .addCertificate (c86Cert 49), .getKey (c86Key 49)]).1 = [.none, .none, .bytes [7]] ∧
      (c86Cert 49).keyName = c86Key 49 ∧ (c86Cert 49).keyDer ≠ [7] := by decide +kernel

/-- The last timestamp belongs to a storage: two storages give the same new key name, if the other's key has not been added. -/
theorem C86_two_storages (last now : Nat) (i : Name) (u : Bool) (h1 h2 : Name → Bool) (n m : Name)
    (e1 : newKeys last [⟨now, i, u, h1⟩] = [.ok n]) (e2 : newKeys last [⟨now, i, u, h2⟩] = [.ok m]) : n = m := by
  unfold newKeys at e1 e2
  injection e1 with e1 _
  injection e2 with e2 _
  rw [(newKey_ok e1).1, (newKey_ok e2).1]
  rfl

/-- An empty key name raises IndexError in the database, and not in memory. -/
theorem C86_empty_key_name : (DB.run {} [.doesKeyExist []]).1 = [.raised .index] ∧ (Mem.run {} [.doesKeyExist []]).1 = [.bool false] := by
  decide +kernel

end PyNDN.IdentityStorage
