import Verif.Lemmas.KeyStore
/-
The stored PIB is consistent after any history.
-/
namespace PyNDN
namespace KeyChain
open PSync (dictGet dictSet dictDel dictGet_none dictGet_some)
open Spec.KeyChain

namespace Store

theorem consistent_empty : Consistent {} :=
  ⟨fun _ h => (nomatch h), fun _ _ h => (nomatch h), fun _ _ h => (nomatch h), fun _ _ h => (nomatch h), fun _ _ h => (nomatch h)⟩

theorem addIdentity_identities (s : Store) (n m : Name) : m ∈ (addIdentity n s).2.identities ↔ m = n ∨ m ∈ s.identities := by
  show m ∈ (if n ∈ s.identities then s.identities else s.identities ++ [n]) ↔ _
  split
  · rename_i h
    exact ⟨Or.inr, fun hh => hh.elim (fun e => e ▸ h) fun x => x⟩
  · rw [List.mem_append, List.mem_singleton, or_comm]

theorem addIdentity_consistent {s : Store} (h : Consistent s) (n : Name) : Consistent (addIdentity n s).2 := by
  have hm := addIdentity_identities s n
  refine ⟨fun m hd => ?_, fun k b hk => ⟨(h.key k b hk).1, (hm _).2 (Or.inr (h.key k b hk).2)⟩, h.defaultKey, h.cert, h.defaultCert⟩
  have hd' : (if s.defaultIdentity = none then some n else s.defaultIdentity) = some m := hd
  rw [hm]
  split at hd'
  · cases hd'; exact Or.inl rfl
  · exact Or.inr (h.defaultIdentity m hd')

theorem setDefaultIdentity_consistent {s : Store} (h : Consistent s) (n : Name) : Consistent (setDefaultIdentity n s).2 := by
  have h1 := addIdentity_consistent h n
  refine ⟨fun m hd => ?_, h1.key, h1.defaultKey, h1.cert, h1.defaultCert⟩
  have : some n = some m := hd
  cases this
  exact (addIdentity_identities s n n).2 (Or.inl rfl)

theorem addKey_consistent {s : Store} (h : Consistent s) {k : Name} (hk : isValidKeyName k = true) (bits : Bytes) :
    Consistent (addKey (identityOfKey k) k bits s).2 := by
  have h1 := addIdentity_consistent h (identityOfKey k)
  refine ⟨h1.defaultIdentity, fun k' b hb => ?_, fun n k' hd => ?_, fun c d hc => ?_, h.defaultCert⟩
  · have hb' : dictGet k' (dictSet k bits s.keys) = some b := hb
    rw [get_set] at hb'
    split at hb'
    · rename_i e
      subst e
      exact ⟨hk, (addIdentity_identities s _ _).2 (Or.inl rfl)⟩
    · exact h1.key k' b hb'
  · have hd' : dictGet n (if dictGet (identityOfKey k) s.defaultKeys = none then dictSet (identityOfKey k) k s.defaultKeys else s.defaultKeys) = some k' := hd
    show (∃ b, dictGet k' (dictSet k bits s.keys) = some b) ∧ _
    rw [get_set]
    split at hd'
    · rw [get_set] at hd'
      split at hd'
      · rename_i e
        cases hd'
        exact ⟨⟨bits, if_pos rfl⟩, e.symm⟩
      · obtain ⟨⟨b, hb⟩, hi⟩ := h.defaultKey n k' hd'
        refine ⟨?_, hi⟩
        split
        · exact ⟨_, rfl⟩
        · exact ⟨b, hb⟩
    · obtain ⟨⟨b, hb⟩, hi⟩ := h.defaultKey n k' hd'
      refine ⟨?_, hi⟩
      split
      · exact ⟨_, rfl⟩
      · exact ⟨b, hb⟩
  · obtain ⟨h2, ⟨b, hb⟩, h3⟩ := h.cert c d hc
    refine ⟨h2, ?_, h3⟩
    show ∃ b, dictGet _ (dictSet k bits s.keys) = some b
    rw [get_set]
    split
    · exact ⟨_, rfl⟩
    · exact ⟨b, hb⟩

theorem removeKey_consistent {s : Store} (h : Consistent s) (k : Name) : Consistent (removeKey k s).2 := by
  cases hk : isValidKeyName k with
  | false =>
    unfold removeKey
    rw [check_false _ hk]
    exact h
  | true =>
    obtain ⟨s', e, g0, g1, g2, g3, g4, g5, g6⟩ := removeKey_spec (named h) hk
    rw [e]
    refine ⟨fun n hn => ?_, fun k' b hb => ?_, fun n k' hd => ?_, fun c d hc => ?_, fun k' c hc => ?_⟩
    · dsimp only at hn ⊢
      rw [g2]; rw [g1] at hn
      exact h.defaultIdentity n hn
    · dsimp only at hb ⊢
      rw [g4] at hb
      split at hb
      · nomatch hb
      · rw [g2]; exact h.key k' b hb
    · dsimp only at hd ⊢
      rw [g3] at hd
      split at hd
      · nomatch hd
      · rename_i hne
        obtain ⟨⟨b, hb⟩, hi⟩ := h.defaultKey n k' hd
        refine ⟨⟨b, ?_⟩, hi⟩
        rw [g4, if_neg (by rintro rfl; exact hne hi.symm)]
        exact hb
    · dsimp only at hc ⊢
      rw [g5] at hc
      split at hc
      · nomatch hc
      · rename_i hne
        obtain ⟨h2, ⟨b, hb⟩, h3⟩ := h.cert c d hc
        exact ⟨h2, ⟨b, by rw [g4, if_neg hne]; exact hb⟩, h3⟩
    · exact (named_removed (named h) g4 g5 g6).defaultCert k' c hc

theorem removeIdentity_consistent {s : Store} (h : Consistent s) (n : Name) : Consistent (removeIdentity n s).2 := by
  obtain ⟨s', e, g0, g1, g2, g3, g4, g5, g6⟩ := removeIdentity_spec h n
  rw [e]
  refine ⟨fun m hm => ?_, fun k' b hb => ?_, fun m k' hd => ?_, fun c d hc => ?_, fun k' c hc => ?_⟩
  · dsimp only at hm ⊢
    rw [g1] at hm
    split at hm
    · nomatch hm
    · rename_i hne
      rw [g2, List.mem_filter]
      exact ⟨h.defaultIdentity m hm, by simp; rintro rfl; exact hne hm⟩
  · dsimp only at hb ⊢
    rw [g4] at hb
    split at hb
    · nomatch hb
    · rename_i hne
      rw [g2, List.mem_filter]
      exact ⟨(h.key k' b hb).1, (h.key k' b hb).2, by simpa using hne⟩
  · dsimp only at hd ⊢
    rw [g3] at hd
    split at hd
    · nomatch hd
    · rename_i hne
      obtain ⟨⟨b, hb⟩, hi⟩ := h.defaultKey m k' hd
      refine ⟨⟨b, ?_⟩, hi⟩
      rw [g4, if_neg (by rw [hi]; exact hne)]
      exact hb
  · dsimp only at hc ⊢
    rw [g5] at hc
    split at hc
    · nomatch hc
    · rename_i hne
      obtain ⟨h2, ⟨b, hb⟩, h3⟩ := h.cert c d hc
      exact ⟨h2, ⟨b, by rw [g4, if_neg hne]; exact hb⟩, h3⟩
  · dsimp only at hc ⊢
    rw [g6] at hc
    split at hc
    · nomatch hc
    · rename_i hne
      obtain ⟨⟨d, h1⟩, h2⟩ := h.defaultCert k' c hc
      refine ⟨⟨d, ?_⟩, h2⟩
      rw [g5, if_neg (by rw [h2]; exact hne)]
      exact h1

theorem removeCertificate_consistent {s : Store} (h : Consistent s) {c : Name} (hc : isCertName c = true) : Consistent (removeCertificate c s).2 := by
  rw [removeCertificate_eq s hc]
  refine ⟨h.defaultIdentity, h.key, h.defaultKey, fun x d hx => ?_, fun k x hx => ?_⟩
  · have hx' : dictGet x (dictDel c s.certs) = some d := hx
    rw [get_del] at hx'
    split at hx'
    · nomatch hx'
    · exact h.cert x d hx'
  · have hx' : dictGet k (if dictGet (keyOfCert c) s.defaultCerts = some c then dictDel (keyOfCert c) s.defaultCerts else s.defaultCerts) = some x := hx
    show (∃ d, dictGet x (dictDel c s.certs) = some d) ∧ _
    rw [get_del]
    split at hx'
    · rename_i hd
      rw [get_del] at hx'
      split at hx'
      · nomatch hx'
      · rename_i hne
        obtain ⟨h1, h2⟩ := h.defaultCert k x hx'
        refine ⟨?_, h2⟩
        rw [if_neg (by rintro rfl; exact hne h2.symm)]
        exact h1
    · rename_i hd
      obtain ⟨h1, h2⟩ := h.defaultCert k x hx'
      refine ⟨?_, h2⟩
      rw [if_neg (by rintro rfl; rw [h2] at hd; exact hd hx')]
      exact h1

theorem setDefaultKey_consistent {s : Store} (h : Consistent s) {n k : Name} (hk : identityOfKey k = n) :
    Consistent (setDefaultKeyOfIdentity n k s).2 := by
  unfold setDefaultKeyOfIdentity
  rw [get_bind]
  cases hb : dictGet k s.keys with
  | none => exact h
  | some bits =>
    refine ⟨h.defaultIdentity, h.key, fun m k' hd => ?_, h.cert, h.defaultCert⟩
    have hd' : dictGet m (dictSet n k s.defaultKeys) = some k' := hd
    rw [get_set] at hd'
    split at hd'
    · rename_i e
      cases hd'
      exact ⟨⟨bits, hb⟩, hk.trans e.symm⟩
    · exact h.defaultKey m k' hd'

theorem setDefaultCert_consistent {s : Store} (h : Consistent s) {k c : Name} (hk : keyOfCert c = k) :
    Consistent (setDefaultCertificateOfKey k c s).2 := by
  unfold setDefaultCertificateOfKey
  rw [get_bind]
  cases hb : dictGet c s.certs with
  | none => exact h
  | some d =>
    refine ⟨h.defaultIdentity, h.key, h.defaultKey, h.cert, fun k' c' hd => ?_⟩
    have hd' : dictGet k' (dictSet k c s.defaultCerts) = some c' := hd
    rw [get_set] at hd'
    split at hd'
    · rename_i e
      cases hd'
      exact ⟨⟨d, hb⟩, hk.trans e.symm⟩
    · exact h.defaultCert k' c' hd'

theorem addCertificate_consistent {s : Store} (h : Consistent s) (c : Data) (hk : isValidKeyName (keyOfCert c.name) = true) :
    Consistent (addCertificate c s).2 := by
  have h1 := addKey_consistent h hk (c.content.getD [])
  rw [← identityOfCert_eq] at h1
  unfold addCertificate
  have e : ∀ f : Unit → M Store Unit, (addKey (identityOfCert c.name) (keyOfCert c.name) (c.content.getD []) >>= f) s =
      f () (addKey (identityOfCert c.name) (keyOfCert c.name) (c.content.getD []) s).2 := fun f => rfl
  rw [e]
  have hbits : dictGet (keyOfCert c.name) (addKey (identityOfCert c.name) (keyOfCert c.name) (c.content.getD []) s).2.keys = some (c.content.getD []) := by
    show dictGet _ (dictSet _ _ s.keys) = _
    rw [get_set, if_pos rfl]
  generalize (addKey (identityOfCert c.name) (keyOfCert c.name) (c.content.getD []) s).2 = s1 at h1 hbits
  cases hc : checkCert c with
  | error e => exact h1
  | ok u =>
    refine ⟨h1.defaultIdentity, h1.key, h1.defaultKey, fun x d hx => ?_, fun k x hx => ?_⟩
    · have hx' : dictGet x (dictSet c.name c s1.certs) = some d := hx
      rw [get_set] at hx'
      split at hx'
      · rename_i e
        cases hx'
        subst e
        exact ⟨isCertName_of_key hk rfl, ⟨_, hbits⟩, rfl⟩
      · exact h1.cert x d hx'
    · have hx' : dictGet k (if dictGet (keyOfCert c.name) s1.defaultCerts = none then dictSet (keyOfCert c.name) c.name s1.defaultCerts else s1.defaultCerts) = some x := hx
      show (∃ d, dictGet x (dictSet c.name c s1.certs) = some d) ∧ _
      rw [get_set]
      have hold : ∀ hx' : dictGet k s1.defaultCerts = some x, (∃ d, (if x = c.name then some c else dictGet x s1.certs) = some d) ∧ keyOfCert x = k := by
        intro hx'
        obtain ⟨⟨d, hd⟩, h2⟩ := h1.defaultCert k x hx'
        refine ⟨?_, h2⟩
        split
        · exact ⟨c, rfl⟩
        · exact ⟨d, hd⟩
      split at hx'
      · rw [get_set] at hx'
        split at hx'
        · rename_i e
          cases hx'
          exact ⟨⟨c, if_pos rfl⟩, e.symm⟩
        · exact hold hx'
      · exact hold hx'

end Store

/-! ### All histories -/

/-- A key object: its name is a key name, and its certificates are of this key. -/
def GoodKey (k : KeyImpl) : Prop := isValidKeyName k.name = true ∧ ∀ c d, dictGet c k.certs = some d → keyOfCert c = k.name

/-- What holds even if the application uses objects of removed identities and keys. -/
def Always (s : KC) : Prop := Consistent s.store ∧ ∀ k ∈ s.keys, GoodKey k

/-- A method that keeps this, and what its result then satisfies. -/
def Keeps (m : K α) (post : α → Prop := fun _ => True) : Prop := ∀ s, Always s → Always (m s).2 ∧ ∀ a, (m s).1 = .ok a → post a

theorem Keeps.bind {m : K α} {f : α → K β} {p : α → Prop} {q : β → Prop} (hm : Keeps m p) (hf : ∀ a, p a → Keeps (f a) q) : Keeps (m >>= f) q := by
  intro s hs
  obtain ⟨h1, h2⟩ := hm s hs
  rw [bind_run]
  cases e : m s with
  | mk r s' =>
    rw [e] at h1 h2
    cases r with
    | ok a => exact hf a (h2 a rfl) s' h1
    | error x => exact ⟨h1, fun _ h => (nomatch h)⟩

theorem Keeps.pure {a : α} {q : α → Prop} (h : q a) : Keeps (Pure.pure a : K α) q := fun _ hs => ⟨hs, fun _ e => by cases e; exact h⟩
theorem Keeps.raise {e : KErr} {q : α → Prop} : Keeps (KeyChain.raise e : K α) q := fun _ hs => ⟨hs, fun _ e => (nomatch e)⟩
theorem Keeps.get : Keeps KeyChain.get := fun _ hs => ⟨hs, fun _ _ => trivial⟩
theorem Keeps.weaken {m : K α} {p q : α → Prop} (h : Keeps m p) (hq : ∀ a, p a → q a) : Keeps m q :=
  fun s hs => ⟨(h s hs).1, fun a e => hq a ((h s hs).2 a e)⟩
theorem Keeps.any {m : K α} {p : α → Prop} (h : Keeps m p) : Keeps m := h.weaken fun _ _ => trivial
theorem Keeps.check (c : Bool) (e : KErr) : Keeps (KeyChain.check c e) (fun _ => c = true) := by
  cases c
  · exact Keeps.raise
  · exact Keeps.pure rfl
theorem Keeps.orRaise (o : Option α) (e : KErr) : Keeps (KeyChain.orRaise o e : K α) (fun a => o = some a) := by
  cases o
  · exact Keeps.raise
  · exact Keeps.pure rfl
theorem Keeps.lift (r : Except Err α) : Keeps (KeyChain.lift r : K α) (fun a => r = .ok a) := by
  cases r
  · exact Keeps.raise
  · exact Keeps.pure rfl
theorem Keeps.exceptAny {m h : K α} {q : α → Prop} (hm : Keeps m q) (hh : Keeps h q) : Keeps (m.exceptAny h) q := by
  intro s hs
  obtain ⟨h1, h2⟩ := hm s hs
  unfold M.exceptAny M.except
  cases e : m s with
  | mk r s' =>
    rw [e] at h1 h2
    cases r with
    | ok a => exact ⟨h1, h2⟩
    | error x => exact hh s' h1
theorem Keeps.exceptPib {m h : K α} {q : α → Prop} (hm : Keeps m q) (hh : Keeps h q) : Keeps (m.exceptPib h) q := by
  intro s hs
  obtain ⟨h1, h2⟩ := hm s hs
  unfold M.exceptPib M.except
  cases e : m s with
  | mk r s' =>
    rw [e] at h1 h2
    cases r with
    | ok a => exact ⟨h1, h2⟩
    | error x =>
      dsimp only
      split
      · rename_i hx
        split at hx
        · cases hx; exact hh s' h1
        · nomatch hx
      · exact ⟨h1, fun _ h => (nomatch h)⟩
theorem Keeps.forEach {f : β → K Unit} (hf : ∀ b, Keeps (f b)) : ∀ l : List β, Keeps (KeyChain.forEach f l)
  | [] => Keeps.pure trivial
  | x :: xs => Keeps.bind (hf x) fun _ _ => Keeps.forEach hf xs

/-- A change of what is neither in the stored PIB nor a key object. -/
theorem Keeps.modify {f : KC → KC} (h1 : ∀ s, (f s).store = s.store) (h2 : ∀ s, (f s).keys = s.keys) : Keeps (KeyChain.modify f) := by
  intro s hs
  refine ⟨?_, fun _ _ => trivial⟩
  show Always (f s)
  unfold Always
  rw [h1, h2]
  exact hs

theorem Keeps.onStore {m : M Store α} (h : ∀ s, Consistent s → Consistent (m s).2) : Keeps (KeyChain.onStore m) := by
  intro s hs
  refine ⟨⟨?_, hs.2⟩, fun _ _ => trivial⟩
  exact h _ hs.1

theorem Keeps.setId (h : Nat) (f : IdImpl → IdImpl) : Keeps (KeyChain.setId h f) := Keeps.modify (fun _ => rfl) (fun _ => rfl)

theorem Keeps.setKey (k : Nat) {f : KeyImpl → KeyImpl} (hf : ∀ key, GoodKey key → GoodKey (f key)) : Keeps (KeyChain.setKey k f) := by
  intro s hs
  refine ⟨⟨hs.1, fun x hx => ?_⟩, fun _ _ => trivial⟩
  obtain ⟨n, hn⟩ := List.mem_iff_getElem?.1 (show x ∈ s.keys.modify k f from hx)
  rw [List.getElem?_modify] at hn
  cases hg : s.keys[n]? with
  | none => rw [hg] at hn; nomatch hn
  | some y =>
    rw [hg] at hn
    have hy := hs.2 y (List.mem_iff_getElem?.2 ⟨n, hg⟩)
    have hn' : (if k = n then f y else y) = x := by
      split at hn
      · rename_i h; rw [if_pos h]; exact Option.some.inj hn
      · rename_i h; rw [if_neg h]; exact Option.some.inj hn
    subst hn'
    split
    · exact hf y hy
    · exact hy

theorem Keeps.newId (i : IdImpl) : Keeps (KeyChain.newId i) := fun _ hs => ⟨hs, fun _ _ => trivial⟩
theorem Keeps.newKey {k : KeyImpl} (h : GoodKey k) : Keeps (KeyChain.newKey k) := by
  intro s hs
  refine ⟨⟨hs.1, fun x hx => ?_⟩, fun _ _ => trivial⟩
  rcases List.mem_append.1 (show x ∈ s.keys ++ [k] from hx) with hx | hx
  · exact hs.2 x hx
  · rw [List.mem_singleton.1 hx]; exact h

theorem keyImpl_some {s : KC} {k : Nat} {key : KeyImpl} (h : s.keys[k]? = some key) (f : KeyImpl → K α) : (keyImpl k >>= f) s = f key s := by
  have e : keyImpl k s = (.ok key, s) := by
    show (orRaise s.keys[k]? (.py .attribute) : K _) s = _
    rw [h]; rfl
  rw [bind_ok e]
theorem keyImpl_none {s : KC} {k : Nat} (h : s.keys[k]? = none) (f : KeyImpl → K α) : (keyImpl k >>= f) s = (.error (.py .attribute), s) := by
  have e : keyImpl k s = (.error (.py .attribute), s) := by
    show (orRaise s.keys[k]? (.py .attribute) : K _) s = _
    rw [h]; rfl
  rw [bind_err e]
theorem idImpl_some {s : KC} {h : Nat} {i : IdImpl} (hi : s.ids[h]? = some i) (f : IdImpl → K α) : (idImpl h >>= f) s = f i s := by
  have e : idImpl h s = (.ok i, s) := by
    show (orRaise s.ids[h]? (.py .attribute) : K _) s = _
    rw [hi]; rfl
  rw [bind_ok e]
theorem idImpl_none {s : KC} {h : Nat} (hi : s.ids[h]? = none) (f : IdImpl → K α) : (idImpl h >>= f) s = (.error (.py .attribute), s) := by
  have e : idImpl h s = (.error (.py .attribute), s) := by
    show (orRaise s.ids[h]? (.py .attribute) : K _) s = _
    rw [hi]; rfl
  rw [bind_err e]

/-- A method that begins with the key object `k`. -/
theorem Keeps.withKey {k : Nat} {f : KeyImpl → K α} {q : α → Prop}
    (h : ∀ s key, Always s → s.keys[k]? = some key → GoodKey key → Always (f key s).2 ∧ ∀ a, (f key s).1 = .ok a → q a) : Keeps (keyImpl k >>= f) q := by
  intro s hs
  cases hk : s.keys[k]? with
  | none => rw [keyImpl_none hk]; exact ⟨hs, fun _ h => (nomatch h)⟩
  | some key => rw [keyImpl_some hk]; exact h s key hs hk (hs.2 _ (List.mem_iff_getElem?.2 ⟨k, hk⟩))

theorem keeps_keyImpl (k : Nat) : Keeps (keyImpl k) GoodKey := by
  have h := Keeps.withKey (k := k) (f := fun key => (pure key : K KeyImpl)) (q := GoodKey) fun s key hs _ hg => ⟨hs, fun a e => by cases e; exact hg⟩
  intro s hs
  have := h s hs
  cases hk : s.keys[k]? with
  | none => rw [keyImpl_none hk] at this; show Always ((orRaise s.keys[k]? (.py .attribute) : K _) s).2 ∧ ∀ a, ((orRaise s.keys[k]? (.py .attribute) : K _) s).1 = .ok a → _; rw [hk]; exact this
  | some key => rw [keyImpl_some hk] at this; show Always ((orRaise s.keys[k]? (.py .attribute) : K _) s).2 ∧ ∀ a, ((orRaise s.keys[k]? (.py .attribute) : K _) s).1 = .ok a → _; rw [hk]; exact this

theorem keeps_idImpl (h : Nat) : Keeps (idImpl h) := Keeps.bind Keeps.get fun _ _ => (Keeps.orRaise _ _).any

/-- A change of the key object `k`. -/
theorem always_setKey {s : KC} (hs : Always s) {k : Nat} {key : KeyImpl} (hk : s.keys[k]? = some key) {f : KeyImpl → KeyImpl} (hf : GoodKey (f key)) :
    Always (setKey k f s).2 := by
  refine ⟨hs.1, fun x hx => ?_⟩
  obtain ⟨n, hn⟩ := List.mem_iff_getElem?.1 (show x ∈ s.keys.modify k f from hx)
  rw [List.getElem?_modify] at hn
  by_cases e : k = n
  · subst e
    rw [hk] at hn
    have hn' : (if k = k then f key else key) = x := Option.some.inj hn
    rw [if_pos rfl] at hn'
    exact hn' ▸ hf
  · cases hg : s.keys[n]? with
    | none => rw [hg] at hn; nomatch hn
    | some y =>
      rw [hg] at hn
      have hn' : (if k = n then f y else y) = x := Option.some.inj hn
      rw [if_neg e] at hn'
      exact hn' ▸ hs.2 y (List.mem_iff_getElem?.2 ⟨n, hg⟩)

theorem setKey_bind (k : Nat) (f : KeyImpl → KeyImpl) (g : Unit → K α) (s : KC) : (setKey k f >>= g) s = g () (setKey k f s).2 := rfl
theorem setId_bind (k : Nat) (f : IdImpl → IdImpl) (g : Unit → K α) (s : KC) : (setId k f >>= g) s = g () (setId k f s).2 := rfl

theorem goodKey_cert {key : KeyImpl} (h : GoodKey key) {c : Name} (d : Data) (hc : keyOfCert c = key.name) :
    GoodKey { key with certs := dictSet c d key.certs } := by
  refine ⟨h.1, fun x e hx => ?_⟩
  have hx' : dictGet x (dictSet c d key.certs) = some e := hx
  rw [get_set] at hx'
  split at hx'
  · rename_i hh; rw [hh]; exact hc
  · exact h.2 x e hx'

theorem goodKey_del {key : KeyImpl} (h : GoodKey key) (c : Name) : GoodKey { key with certs := dictDel c key.certs } := by
  refine ⟨h.1, fun x e hx => ?_⟩
  have hx' : dictGet x (dictDel c key.certs) = some e := hx
  rw [get_del] at hx'
  split at hx'
  · nomatch hx'
  · exact h.2 x e hx'

theorem keeps_certAdd (k : Nat) (c : Data) : Keeps (certAdd k c) := by
  unfold certAdd
  refine Keeps.withKey fun s key hs hk hg => ?_
  refine ⟨?_, fun _ _ => trivial⟩
  cases hc : key.name.equals (keyOfCert c.name) with
  | false => exact hs
  | true =>
    rw [check_true _ rfl]
    have e : key.name = keyOfCert c.name := equals_iff.1 hc
    cases hcc : checkCert c with
    | error x => exact hs
    | ok u =>
      have h1 := always_setKey hs hk (f := fun key => { key with certs := dictSet c.name c key.certs }) (goodKey_cert hg c e.symm)
      exact ((Keeps.onStore fun st hst => Store.addCertificate_consistent hst c (e ▸ hg.1)) _ h1).1

theorem keeps_certRemove (k : Nat) (c : Name) : Keeps (certRemove k c) := by
  unfold certRemove
  refine Keeps.bind (keeps_keyImpl k) fun key hkey => Keeps.bind (Keeps.check _ _) fun _ hc => ?_
  exact Keeps.bind (Keeps.setKey k fun key hg => goodKey_del hg c) fun _ _ =>
    Keeps.onStore fun st hst => Store.removeCertificate_consistent hst (Bool.and_eq_true _ _ ▸ hc).1

theorem store_read {α : Type} {m : M Store α} (h : ∀ s, (m s).2 = s) : ∀ s, Consistent s → Consistent (m s).2 := fun s hs => by rw [h]; exact hs

theorem Store.getCertificate_same (c : Name) (s : Store) : (Store.getCertificate c s).2 = s := by
  show ((orRaise (dictGet c s.certs) .pib : M Store _) s).2 = s
  cases dictGet c s.certs <;> rfl
theorem Store.getKeyBits_same (c : Name) (s : Store) : (Store.getKeyBits c s).2 = s := by
  show ((orRaise (dictGet c s.keys) .pib : M Store _) s).2 = s
  cases dictGet c s.keys <;> rfl
theorem Store.getDefaultKeyOfIdentity_same (c : Name) (s : Store) : (Store.getDefaultKeyOfIdentity c s).2 = s := by
  show ((orRaise (dictGet c s.defaultKeys) .pib : M Store _) s).2 = s
  cases dictGet c s.defaultKeys <;> rfl
theorem Store.getDefaultIdentity_same (s : Store) : (Store.getDefaultIdentity s).2 = s := by
  show ((orRaise s.defaultIdentity .pib : M Store _) s).2 = s
  cases s.defaultIdentity <;> rfl
theorem Store.getDefaultCertificateOfKey_same (c : Name) (s : Store) : (Store.getDefaultCertificateOfKey c s).2 = s := by
  unfold Store.getDefaultCertificateOfKey
  rw [get_bind]
  cases dictGet c s.defaultCerts with
  | none => rfl
  | some x =>
    show ((orRaise (dictGet x s.certs) (.py .key) : M Store _) s).2 = s
    cases dictGet x s.certs <;> rfl

theorem keeps_certGet (k : Nat) (c : Name) : ∀ s key, Always s → s.keys[k]? = some key →
    Always (certGet k c s).2 ∧ ∀ d, (certGet k c s).1 = .ok d → keyOfCert c = key.name := by
  intro s key hs hk
  have hg := hs.2 _ (List.mem_iff_getElem?.2 ⟨k, hk⟩)
  unfold certGet
  rw [keyImpl_some hk]
  cases hd : dictGet c key.certs with
  | some d => exact ⟨hs, fun _ _ => hg.2 c d hd⟩
  | none =>
    dsimp only
    cases hc : (isCertName c && (keyOfCert c).equals key.name) with
    | false => exact ⟨hs, fun _ h => (nomatch h)⟩
    | true =>
      rw [check_true _ rfl]
      have e : keyOfCert c = key.name := equals_iff.1 (Bool.and_eq_true _ _ ▸ hc).2
      refine ⟨?_, fun _ _ => e⟩
      have hst := Store.getCertificate_same c s.store
      have e2 : (onStore (Store.getCertificate c) s) = ((Store.getCertificate c s.store).1, s) := by
        unfold onStore
        rw [show Store.getCertificate c s.store = ((Store.getCertificate c s.store).1, s.store) from Prod.ext rfl hst]
      rw [bind_run, e2]
      cases (Store.getCertificate c s.store).1 with
      | error x => exact hs
      | ok d => exact always_setKey hs hk (goodKey_cert hg d e)

theorem keeps_keyRemoveCertificate (k : Nat) (c : Name) : Keeps (keyRemoveCertificate k c) := by
  unfold keyRemoveCertificate
  refine Keeps.bind (Keeps.setKey k fun key hg => ?_) fun _ _ => keeps_certRemove k c
  split
  · split
    · exact hg
    · exact hg
  · exact hg

theorem keeps_keySetDefaultCertificate (k : Nat) (c : Name) : Keeps (keySetDefaultCertificate k c) := by
  unfold keySetDefaultCertificate
  refine Keeps.withKey fun s key hs hk hg => ⟨?_, fun _ _ => trivial⟩
  obtain ⟨h1, h2⟩ := keeps_certGet k c s key hs hk
  rw [bind_run]
  cases e : certGet k c s with
  | mk r s' =>
    rw [e] at h1 h2
    cases r with
    | error x => exact h1
    | ok d =>
      have hkc := h2 d rfl
      have : Keeps (do setKey k fun key => { key with defaultCert := some d }; onStore (Store.setDefaultCertificateOfKey key.name c); return d) :=
        Keeps.bind (Keeps.setKey k fun key hg => hg) fun _ _ => Keeps.bind (Keeps.onStore fun st hst => Store.setDefaultCert_consistent hst hkc) fun _ _ => Keeps.pure trivial
      exact (this s' h1).1

theorem keeps_keyGetDefaultCertificate (k : Nat) : Keeps (keyGetDefaultCertificate k) := by
  unfold keyGetDefaultCertificate
  refine Keeps.bind (keeps_keyImpl k) fun key hkey => ?_
  cases key.defaultCert with
  | some d => exact Keeps.pure trivial
  | none =>
    exact Keeps.bind (Keeps.onStore (store_read (Store.getDefaultCertificateOfKey_same key.name))) fun _ _ =>
      Keeps.bind (Keeps.setKey k fun key hg => hg) fun _ _ => Keeps.pure trivial

theorem keeps_getCertificatesOfKey (k : Name) : Keeps (onStore (Store.getCertificatesOfKey k)) :=
  Keeps.onStore fun s hs => by rw [Store.getCertificatesOfKey_eq (Store.named hs)]; exact hs
theorem keeps_getKeysOfIdentity (k : Name) : Keeps (onStore (Store.getKeysOfIdentity k)) :=
  Keeps.onStore fun s hs => by rw [Store.getKeysOfIdentity_eq (Store.named hs)]; exact hs

theorem goodKey_new {k : Name} (h : isValidKeyName k = true) (bits : Bytes) : GoodKey { name := k, bits := bits } :=
  ⟨h, fun _ _ e => (nomatch e)⟩

theorem keeps_loadKey (P : Params) (k : Name) : Keeps (loadKey P k) := by
  unfold loadKey
  exact Keeps.bind (Keeps.check _ _) fun _ hc => Keeps.bind (keeps_getCertificatesOfKey k) fun _ _ =>
    Keeps.bind (Keeps.onStore (store_read (Store.getKeyBits_same k))) fun _ _ => Keeps.bind (Keeps.check _ _) fun _ _ => Keeps.newKey (goodKey_new hc _)

theorem keeps_makeKey (P : Params) (k : Name) (bits : Bytes) : Keeps (makeKey P k bits) := by
  unfold makeKey
  exact Keeps.bind (Keeps.check _ _) fun _ hc => Keeps.bind (keeps_getCertificatesOfKey k) fun _ _ => Keeps.bind (Keeps.check _ _) fun _ _ =>
    Keeps.bind (Keeps.onStore fun s hs => Store.addKey_consistent hs hc bits) fun _ _ => Keeps.newKey (goodKey_new hc _)

theorem keeps_keyGet (P : Params) (h : Nat) (k : Name) : Keeps (keyGet P h k) := by
  unfold keyGet
  refine Keeps.bind (keeps_idImpl h) fun i _ => Keeps.bind (Keeps.check _ _) fun _ hc => ?_
  split
  · exact Keeps.pure trivial
  · exact Keeps.bind (keeps_loadKey P k) fun _ _ => Keeps.bind (Keeps.setId _ _) fun _ _ => Keeps.pure trivial

/-- `keyGet` returns only if the key is of the identity. -/
theorem keyGet_identity {P : Params} {h : Nat} {k : Name} {s : KC} {i : IdImpl} (hi : s.ids[h]? = some i) {r : Nat} (hr : (keyGet P h k s).1 = .ok r) :
    i.name = identityOfKey k := by
  unfold keyGet at hr
  rw [idImpl_some hi] at hr
  cases hc : (isValidKeyName k && i.name.equals (identityOfKey k)) with
  | false => rw [hc] at hr; nomatch hr
  | true => exact equals_iff.1 (Bool.and_eq_true _ _ ▸ hc).2

theorem keeps_keyAdd (P : Params) (h : Nat) (bits : Bytes) (k : Name) : Keeps (keyAdd P h bits k) := by
  unfold keyAdd
  exact Keeps.bind (keeps_idImpl h) fun i _ => Keeps.bind (Keeps.check _ _) fun _ hc => Keeps.bind (keeps_makeKey P k bits) fun _ _ =>
    Keeps.bind (Keeps.setId _ _) fun _ _ => keeps_keyGet P h k

theorem keeps_keyRemove (h : Nat) (k : Name) : Keeps (keyRemove h k) := by
  unfold keyRemove
  exact Keeps.bind (keeps_idImpl h) fun i _ => Keeps.bind (Keeps.check _ _) fun _ hc => Keeps.bind (Keeps.setId _ _) fun _ _ =>
    Keeps.onStore fun s hs => Store.removeKey_consistent hs k

theorem keeps_idRemoveKey (h : Nat) (k : Name) : Keeps (idRemoveKey h k) := by
  unfold idRemoveKey
  refine Keeps.bind (keeps_idImpl h) fun i _ => ?_
  split
  · refine Keeps.bind (keeps_keyImpl _) fun key _ => ?_
    split
    · exact Keeps.bind (Keeps.setId _ _) fun _ _ => keeps_keyRemove h k
    · exact keeps_keyRemove h k
  · exact keeps_keyRemove h k

theorem keeps_idSetDefaultKey (P : Params) (h : Nat) (k : Name) : Keeps (idSetDefaultKey P h k) := by
  intro s hs
  refine ⟨?_, fun _ _ => trivial⟩
  unfold idSetDefaultKey
  cases hi : s.ids[h]? with
  | none => rw [idImpl_none hi]; exact hs
  | some i =>
    rw [idImpl_some hi]
    have h1 := (keeps_keyGet P h k s hs).1
    have h2 : ∀ r, (keyGet P h k s).1 = .ok r → _ := fun r => keyGet_identity hi
    rw [bind_run]
    cases e : keyGet P h k s with
    | mk r s' =>
      rw [e] at h1 h2
      cases r with
      | error x => exact h1
      | ok r =>
        have hki := h2 r rfl
        have : Keeps (do setId h fun i => { i with defaultKey := some r }; onStore (Store.setDefaultKeyOfIdentity i.name k); return r) :=
          Keeps.bind (Keeps.setId _ _) fun _ _ => Keeps.bind (Keeps.onStore fun st hst => Store.setDefaultKey_consistent hst hki.symm) fun _ _ => Keeps.pure trivial
        exact (this s' h1).1

theorem keeps_idGetDefaultKey (P : Params) (h : Nat) : Keeps (idGetDefaultKey P h) := by
  unfold idGetDefaultKey
  refine Keeps.bind (keeps_idImpl h) fun i _ => ?_
  split
  · exact Keeps.pure trivial
  · exact Keeps.bind (Keeps.onStore (store_read (Store.getDefaultKeyOfIdentity_same _))) fun _ _ => Keeps.bind (keeps_keyGet P h _) fun _ _ =>
      Keeps.bind (Keeps.setId _ _) fun _ _ => Keeps.pure trivial

theorem keeps_loadId (n : Name) (b : Bool) : Keeps (loadId n b) := by
  unfold loadId
  refine Keeps.bind (keeps_getKeysOfIdentity n) fun _ _ => ?_
  cases b with
  | true => exact Keeps.bind (Keeps.onStore fun s hs => Store.addIdentity_consistent hs n) fun _ _ => Keeps.newId _
  | false => exact Keeps.bind Keeps.get fun _ _ => Keeps.bind (Keeps.check _ _) fun _ _ => Keeps.newId _

theorem keeps_getIdentity (n : Name) : Keeps (getIdentity n) := by
  unfold getIdentity
  refine Keeps.bind Keeps.get fun s0 _ => ?_
  split
  · exact Keeps.pure trivial
  · exact Keeps.bind (keeps_loadId n false) fun _ _ => Keeps.bind (Keeps.modify (fun _ => rfl) (fun _ => rfl)) fun _ _ => Keeps.pure trivial

theorem keeps_addIdentity (n : Name) : Keeps (addIdentity n) := by
  unfold addIdentity
  refine Keeps.bind Keeps.get fun s0 _ => ?_
  split
  · exact keeps_getIdentity n
  · exact Keeps.bind (Keeps.modify (fun _ => rfl) (fun _ => rfl)) fun _ _ => Keeps.bind (keeps_loadId n true) fun _ _ =>
      Keeps.bind (Keeps.modify (fun _ => rfl) (fun _ => rfl)) fun _ _ => keeps_getIdentity n

theorem keeps_removeIdentity (n : Name) : Keeps (removeIdentity n) := by
  have h : Keeps (do modify fun s => { s with identityNames := s.identityNames.filter (· ≠ n), identities := dictDel n s.identities }; onStore (Store.removeIdentity n)) :=
    Keeps.bind (Keeps.modify (fun _ => rfl) (fun _ => rfl)) fun _ _ => Keeps.onStore fun s hs => Store.removeIdentity_consistent hs n
  unfold removeIdentity
  refine Keeps.bind Keeps.get fun s0 _ => ?_
  split
  · refine Keeps.bind (keeps_idImpl _) fun i _ => ?_
    split
    · exact Keeps.bind (Keeps.modify (fun _ => rfl) (fun _ => rfl)) fun _ _ => h
    · exact h
  · exact h

theorem keeps_getDefaultIdentity : Keeps getDefaultIdentity := by
  unfold getDefaultIdentity
  refine Keeps.bind Keeps.get fun s0 _ => ?_
  split
  · exact Keeps.pure trivial
  · exact Keeps.bind (Keeps.onStore (store_read Store.getDefaultIdentity_same)) fun n _ => Keeps.bind (keeps_getIdentity n) fun _ _ =>
      Keeps.bind (Keeps.modify (fun _ => rfl) (fun _ => rfl)) fun _ _ => Keeps.pure trivial

theorem keeps_pibSetDefaultIdentity (n : Name) : Keeps (pibSetDefaultIdentity n) := by
  unfold pibSetDefaultIdentity
  exact Keeps.bind (keeps_addIdentity n) fun _ _ => Keeps.bind (Keeps.modify (fun _ => rfl) (fun _ => rfl)) fun _ _ =>
    Keeps.onStore fun s hs => Store.setDefaultIdentity_consistent hs n

theorem keeps_setTpmLocator (l : Bytes) : Keeps (setTpmLocator l) := by
  intro s hs
  exact ⟨⟨⟨hs.1.defaultIdentity, hs.1.key, hs.1.defaultKey, hs.1.cert, hs.1.defaultCert⟩, hs.2⟩, fun _ _ => trivial⟩

theorem keeps_findKey (k : Name) : Keeps (findKey k) := by
  unfold findKey
  refine Keeps.bind Keeps.get fun s0 _ => ?_
  split
  · exact Keeps.pure trivial
  · refine Keeps.bind Keeps.get fun s1 _ => ?_
    split
    · exact Keeps.bind (Keeps.modify (fun _ => rfl) (fun _ => rfl)) fun _ _ => Keeps.pure trivial
    · exact Keeps.pure trivial

theorem keeps_tpmDelete (k : Name) : Keeps (tpmDelete k) := Keeps.modify (fun _ => rfl) (fun _ => rfl)

theorem keeps_tpmCreate (P : Params) (n : Name) (g : Gen) : Keeps (tpmCreate P n g) := by
  unfold tpmCreate
  split
  · exact Keeps.raise
  · refine Keeps.bind Keeps.get fun s0 _ => ?_
    dsimp only
    have hfin : ∀ id : Component, Keeps (do
        modify fun s => { s with tpm := dictSet (constructKeyName n id) g.private_ s.tpm, handles := dictSet (constructKeyName n id) g.private_ s.handles }
        return constructKeyName n id) := fun id => Keeps.bind (Keeps.modify (fun _ => rfl) (fun _ => rfl)) fun _ _ => Keeps.pure trivial
    split
    · exact Keeps.bind (Keeps.check _ _) fun _ _ => hfin _
    · exact Keeps.bind (Keeps.pure trivial) fun id (_ : True) => hfin id
    · exact Keeps.bind (Keeps.orRaise _ _) fun id _ => hfin id

theorem keeps_tpmSign (P : Params) (random : Nat) (b : Bytes) (k : Name) : Keeps (tpmSign P random b k) := by
  unfold tpmSign
  refine Keeps.bind (keeps_findKey k) fun o _ => ?_
  split <;> exact Keeps.pure trivial

theorem keeps_signatureInfoOf (P : Params) (info : SigningInfo) (k : Nat) : Keeps (signatureInfoOf P info k) := by
  unfold signatureInfoOf
  refine Keeps.bind (keeps_keyImpl k) fun key _ => ?_
  dsimp only
  split
  · exact Keeps.pure trivial
  · exact Keeps.pure trivial
  · exact Keeps.raise

theorem keeps_prepareSignatureInfo (P : Params) (info : SigningInfo) : Keeps (prepareSignatureInfo P info) := by
  have hd : ∀ h : Nat, Keeps (do let k ← (idGetDefaultKey P h).exceptPib (raise .signing); signatureInfoOf P info k) := fun h =>
    Keeps.bind (Keeps.exceptPib (keeps_idGetDefaultKey P h) Keeps.raise) fun k _ => keeps_signatureInfoOf P info k
  unfold prepareSignatureInfo
  dsimp only
  split
  · refine Keeps.bind (Keeps.exceptPib (Keeps.bind keeps_getDefaultIdentity fun _ _ => Keeps.pure trivial) (Keeps.pure trivial)) fun o (_ : True) => ?_
    split
    · exact hd _
    · exact Keeps.pure trivial
  · exact hd _
  · exact Keeps.bind (Keeps.exceptPib (keeps_getIdentity _) Keeps.raise) fun h _ => hd h
  · exact keeps_signatureInfoOf P info _
  · exact Keeps.bind (Keeps.check _ _) fun _ _ => Keeps.bind (Keeps.exceptPib (Keeps.bind (keeps_getIdentity _) fun _ _ => keeps_keyGet P _ _) Keeps.raise) fun k _ =>
      keeps_signatureInfoOf P info k
  · exact Keeps.bind (Keeps.check _ _) fun _ _ => Keeps.bind (Keeps.exceptPib (Keeps.bind (keeps_getIdentity _) fun _ _ => keeps_keyGet P _ _) Keeps.raise) fun k _ =>
      keeps_signatureInfoOf P info k
  · exact Keeps.pure trivial

theorem keeps_signBuffer (P : Params) (random : Nat) (b : Bytes) (k : Name) : Keeps (signBuffer P random b k) := by
  unfold signBuffer
  split
  · exact Keeps.pure trivial
  · exact keeps_tpmSign P random b k

theorem keeps_signData (P : Params) (d : Data) (info : SigningInfo) (random : Nat) : Keeps (signData P d info random) := by
  unfold signData
  exact Keeps.bind (keeps_prepareSignatureInfo P info) fun ⟨k, si⟩ _ => Keeps.bind (Keeps.lift _) fun ⟨wire, b, e⟩ _ =>
    Keeps.bind (keeps_signBuffer P random _ k) fun _ _ => Keeps.bind (Keeps.lift _) fun _ _ => Keeps.pure trivial

theorem keeps_signInterest (P : Params) (i : Interest) (info : SigningInfo) (random : Nat) (nonce : Nat → UInt8) : Keeps (signInterest P i info random nonce) := by
  unfold signInterest
  exact Keeps.bind (keeps_prepareSignatureInfo P info) fun ⟨k, si⟩ _ => Keeps.bind (Keeps.lift _) fun _ _ => Keeps.bind (Keeps.lift _) fun ⟨wire, b, e⟩ _ =>
    Keeps.bind (keeps_signBuffer P random _ k) fun _ _ => Keeps.pure trivial

theorem keeps_selfSign (P : Params) (k : Nat) (now : Int) (random : Nat) : Keeps (selfSign P k now random) := by
  unfold selfSign
  exact Keeps.bind (keeps_keyImpl k) fun key _ => Keeps.bind (Keeps.lift _) fun _ _ => Keeps.bind (keeps_signData P _ _ random) fun c _ =>
    Keeps.bind (Keeps.exceptAny (keeps_certAdd k c) Keeps.raise) fun _ _ => Keeps.pure trivial

theorem keeps_createKey (P : Params) (h : Nat) (g : Gen) : Keeps (createKey P h g) := by
  unfold createKey
  exact Keeps.bind (keeps_idImpl h) fun i _ => Keeps.bind (keeps_tpmCreate P _ g) fun k _ => Keeps.bind (keeps_findKey k) fun p _ =>
    Keeps.bind (keeps_keyAdd P h _ k) fun r _ => Keeps.bind (keeps_selfSign P r _ _) fun _ _ => Keeps.pure trivial

theorem keeps_createIdentity (P : Params) (n : Name) (g : Gen) : Keeps (createIdentity P n g) := by
  unfold createIdentity
  exact Keeps.bind (keeps_addIdentity n) fun h _ => Keeps.bind (Keeps.exceptPib (keeps_idGetDefaultKey P h) (keeps_createKey P h g)) fun k _ =>
    Keeps.bind (Keeps.exceptPib (Keeps.bind (keeps_keyGetDefaultCertificate k) fun _ _ => Keeps.pure trivial) Keeps.raise) fun _ (_ : True) => Keeps.pure trivial

theorem keeps_deleteIdentity (h : Nat) : Keeps (deleteIdentity h) := by
  unfold deleteIdentity
  exact Keeps.bind (keeps_idImpl h) fun i _ => Keeps.bind (Keeps.forEach keeps_tpmDelete _) fun _ _ => keeps_removeIdentity _

theorem keeps_addCertificate (k : Nat) (c : Data) : Keeps (addCertificate k c) := by
  unfold addCertificate
  exact Keeps.bind (keeps_keyImpl k) fun key _ => Keeps.bind (Keeps.check _ _) fun _ _ => keeps_certAdd k c

theorem keeps_importSafeBag (P : Params) (c : Data) (bag : Bytes) (pw : Option Bytes) (random : Nat) : Keeps (importSafeBag P c bag pw random) := by
  unfold importSafeBag
  refine Keeps.bind (Keeps.lift _) fun _ _ => Keeps.bind Keeps.get fun s0 _ => Keeps.bind (Keeps.check _ _) fun _ _ =>
    Keeps.bind (Keeps.exceptPib (Keeps.bind (keeps_getIdentity _) fun _ _ => Keeps.bind (keeps_keyGet P _ _) fun _ _ => Keeps.pure trivial) (Keeps.pure trivial)) fun _ (_ : True) =>
    Keeps.bind (Keeps.check _ _) fun _ _ => Keeps.bind (Keeps.orRaise _ _) fun p _ => Keeps.bind (Keeps.modify (fun _ => rfl) (fun _ => rfl)) fun _ _ =>
    Keeps.bind (keeps_tpmSign P random _ _) fun sig _ => ?_
  dsimp only
  generalize ((P.keyType (c.content.getD [])).isSome && _) = verified
  cases verified
  · exact Keeps.bind (keeps_tpmDelete _) fun _ _ => Keeps.raise
  · exact Keeps.bind (keeps_addIdentity _) fun h _ => Keeps.bind (keeps_keyAdd P h _ _) fun r _ => keeps_certAdd r c

theorem Keeps.out {m : K α} {f : α → Out} (h : Keeps m) : Keeps (K.out m f) := Keeps.bind h fun _ _ => Keeps.pure trivial

theorem keeps_perform (P : Params) : ∀ op : Op, Keeps (perform P op)
  | .createIdentity n g => Keeps.out (keeps_createIdentity P n g)
  | .getIdentity n => Keeps.out (keeps_getIdentity n)
  | .getDefaultIdentity => Keeps.out keeps_getDefaultIdentity
  | .setDefaultIdentity h => Keeps.out (Keeps.bind (keeps_idImpl h) fun _ _ => keeps_pibSetDefaultIdentity _)
  | .deleteIdentity h => Keeps.out (keeps_deleteIdentity h)
  | .deleteIdentityByName n => Keeps.out (Keeps.exceptAny (Keeps.bind (keeps_getIdentity n) fun h _ => keeps_deleteIdentity h) (Keeps.pure trivial))
  | .createKey h g => Keeps.out (keeps_createKey P h g)
  | .getKey h k => Keeps.out (keeps_keyGet P h k)
  | .getDefaultKey h => Keeps.out (keeps_idGetDefaultKey P h)
  | .setDefaultKey h k => Keeps.out (Keeps.bind (keeps_idImpl h) fun _ _ => Keeps.bind (keeps_keyImpl k) fun _ _ => Keeps.bind (Keeps.check _ _) fun _ _ =>
      Keeps.bind (keeps_idSetDefaultKey P h _) fun _ _ => Keeps.pure trivial)
  | .deleteKey h k => Keeps.out (Keeps.bind (keeps_idImpl h) fun _ _ => Keeps.bind (keeps_keyImpl k) fun _ _ => Keeps.bind (Keeps.check _ _) fun _ _ =>
      Keeps.bind (keeps_idRemoveKey h _) fun _ _ => keeps_tpmDelete _)
  | .addCertificate k c => Keeps.out (keeps_addCertificate k c)
  | .getCertificate k c => Keeps.out fun s hs => by
      refine ⟨?_, fun _ _ => trivial⟩
      cases hk : s.keys[k]? with
      | none => unfold certGet; rw [keyImpl_none hk]; exact hs
      | some key => exact (keeps_certGet k c s key hs hk).1
  | .getDefaultCertificate k => Keeps.out (keeps_keyGetDefaultCertificate k)
  | .setDefaultCertificate k c => Keeps.out (Keeps.bind (keeps_addCertificate k c) fun _ _ => Keeps.bind (keeps_keySetDefaultCertificate k _) fun _ _ => Keeps.pure trivial)
  | .deleteCertificate k c => Keeps.out (Keeps.bind (Keeps.check _ _) fun _ _ => keeps_keyRemoveCertificate k c)
  | .selfSign k now r => Keeps.out (keeps_selfSign P k now r)
  | .sign d info r => Keeps.out (keeps_signData P d info r)
  | .signInterest i info r nonce => Keeps.out (keeps_signInterest P i info r nonce)
  | .importSafeBag c bag pw r => Keeps.out (keeps_importSafeBag P c bag pw r)
  | .setTpmLocator l => Keeps.out (keeps_setTpmLocator l)
  | .restart => Keeps.out (Keeps.modify (fun _ => rfl) (fun _ => rfl))

theorem always_foldl (P : Params) : ∀ (ops : List Op) (s : KC), Always s → Always (ops.foldl (fun s op => (perform P op s).2) s)
  | [], _, hs => hs
  | op :: ops, s, hs => always_foldl P ops _ (keeps_perform P op s hs).1

theorem always_run (P : Params) (ops : List Op) : Always (run P ops) :=
  always_foldl P ops {} ⟨Store.consistent_empty, fun _ h => (nomatch h)⟩

end KeyChain
end PyNDN
