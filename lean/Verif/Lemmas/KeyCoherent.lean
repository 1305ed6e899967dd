import Verif.Lemmas.KeyConsistent
/-
What the objects of a KeyChain have to do with the stored PIB and the TPM, as long as the application does not use the objects
of removed identities and keys.
-/
namespace PyNDN
namespace KeyChain
open PSync (dictGet dictSet dictDel dictGet_none dictGet_some)
open Spec.KeyChain

variable {P : Params} {strict : Bool} {s : KC}

theorem get_modify {α : Type} (l : List α) (h : Nat) (f : α → α) (j : Nat) : (l.modify h f)[j]? = if h = j then l[j]?.map f else l[j]? := by
  rw [List.getElem?_modify]
  cases l[j]? with
  | none => split <;> rfl
  | some x => split <;> rfl

/-- What a key object says about the key `k`. -/
structure KeyFacts (strict : Bool) (st : Store) (k : Name) (key : KeyImpl) : Prop where
  name : key.name = k
  bits : dictGet k st.keys = some key.bits
  certs : ∀ c d, dictGet c key.certs = some d → dictGet c st.certs = some d ∧ keyOfCert c = k
  defaultCert : ∀ d, key.defaultCert = some d →
    dictGet k st.defaultCerts = some d.name ∧ d.content = some key.bits ∧ (strict = true → dictGet d.name st.certs = some d)

/-- The facts hold in another PIB with the same key, with its certificates and its default certificate. -/
theorem KeyFacts.store {st st' : Store} {k : Name} {key : KeyImpl} (h : KeyFacts strict st k key) (h1 : dictGet k st'.keys = dictGet k st.keys)
    (h2 : ∀ c, keyOfCert c = k → dictGet c st'.certs = dictGet c st.certs) (h3 : dictGet k st'.defaultCerts = dictGet k st.defaultCerts)
    (h4 : ∀ c, dictGet k st.defaultCerts = some c → keyOfCert c = k) :
    KeyFacts strict st' k key :=
  ⟨h.name, h1.trans h.bits, fun c d hc => ⟨(h2 c (h.certs c d hc).2).trans (h.certs c d hc).1, (h.certs c d hc).2⟩,
    fun d hd => ⟨h3.trans (h.defaultCert d hd).1, (h.defaultCert d hd).2.1, fun hst => (h2 _ (h4 _ (h.defaultCert d hd).1)).trans ((h.defaultCert d hd).2.2 hst)⟩⟩

structure Coh (P : Params) (strict : Bool) (s : KC) : Prop where
  cons : Consistent s.store
  names : ∀ n, n ∈ s.identityNames ↔ n ∈ s.store.identities
  id : ∀ n h, LiveId s n h → ∃ i, s.ids[h]? = some i ∧ i.name = n ∧ n ∈ s.store.identities
  key : ∀ n h i k r, LiveId s n h → s.ids[h]? = some i → dictGet k i.keys = some r →
    identityOfKey k = n ∧ ∃ key, s.keys[r]? = some key ∧ KeyFacts strict s.store k key
  defaultKey : ∀ n h i r, LiveId s n h → s.ids[h]? = some i → i.defaultKey = some r →
    ∃ k, dictGet k i.keys = some r ∧ (strict = true → dictGet n s.store.defaultKeys = some k)
  defaultIdentity : ∀ h, s.defaultIdentity = some h → ∃ n, LiveId s n h ∧ s.store.defaultIdentity = some n
  handles : ∀ k p, dictGet k s.handles = some p → dictGet k s.tpm = some p
  tpm : ∀ k bits, dictGet k s.store.keys = some bits → ∃ p, dictGet k s.tpm = some p ∧ P.publicKey p = bits
  content : ∀ c d, dictGet c s.store.certs = some d → dictGet (keyOfCert c) s.store.keys = d.content

theorem coh_empty : Coh P strict {} :=
  ⟨Store.consistent_empty, fun _ => Iff.rfl, fun _ _ h => (nomatch h), fun _ _ _ _ _ h => (nomatch h), fun _ _ _ _ h => (nomatch h),
    fun _ h => (nomatch h), fun _ _ h => (nomatch h), fun _ _ h => (nomatch h), fun _ _ h => (nomatch h)⟩

/-- What the application holds stays usable. -/
structure Ext (s s' : KC) : Prop where
  id : ∀ n h, LiveId s n h → LiveId s' n h
  key : ∀ k r, LiveKey s k r → LiveKey s' k r

theorem Ext.refl (s : KC) : Ext s s := ⟨fun _ _ h => h, fun _ _ h => h⟩
theorem Ext.trans {a b c : KC} (h : Ext a b) (g : Ext b c) : Ext a c := ⟨fun n h' x => g.id n h' (h.id n h' x), fun k r x => g.key k r (h.key k r x)⟩

/-- Something was loaded: nothing is changed in the PIB and in the TPM. -/
structure Quiet (s s' : KC) : Prop where
  ext : Ext s s'
  store : s'.store = s.store
  tpm : s'.tpm = s.tpm

theorem Quiet.refl (s : KC) : Quiet s s := ⟨Ext.refl s, rfl, rfl⟩
theorem Quiet.trans {a b c : KC} (h : Quiet a b) (g : Quiet b c) : Quiet a c := ⟨h.ext.trans g.ext, g.store.trans h.store, g.tpm.trans h.tpm⟩

/-- The key object that the application holds. -/
theorem Coh.live (hs : Coh P strict s) {k : Name} {r : Nat} (h : LiveKey s k r) : ∃ key, s.keys[r]? = some key ∧ KeyFacts strict s.store k key := by
  obtain ⟨n, h, i, h1, h2, h3⟩ := h
  exact (hs.key n h i k r h1 h2 h3).2

theorem Coh.liveKey_iff (hs : Coh P strict s) {k : Name} {r : Nat} {h : Nat} {i : IdImpl} (h1 : LiveId s (identityOfKey k) h) (h2 : s.ids[h]? = some i) :
    LiveKey s k r ↔ dictGet k i.keys = some r := by
  constructor
  · rintro ⟨n, h', i', g1, g2, g3⟩
    obtain ⟨e, _⟩ := hs.key n h' i' k r g1 g2 g3
    subst e
    have : some h = some h' := h1.symm.trans g1
    cases this
    rw [h2] at g2
    cases g2
    exact g3
  · intro h3
    exact ⟨_, h, i, h1, h2, h3⟩

/-! ### Loading -/

/-- An identity object is made for a stored identity. -/
theorem coh_loadId (hs : Coh P strict s) {n : Name} (hn : n ∈ s.store.identities) (hno : dictGet n s.identities = none) :
    Coh P strict { s with ids := s.ids ++ [{ name := n }], identities := dictSet n s.ids.length s.identities } ∧
    Quiet s { s with ids := s.ids ++ [{ name := n }], identities := dictSet n s.ids.length s.identities } := by
  have hl : ∀ m h, dictGet m (dictSet n s.ids.length s.identities) = some h ↔ (m = n ∧ h = s.ids.length) ∨ (m ≠ n ∧ dictGet m s.identities = some h) := by
    intro m h
    rw [get_set]
    split
    · rename_i e
      refine ⟨fun hh => Or.inl ⟨e, by cases hh; rfl⟩, ?_⟩
      rintro (⟨_, rfl⟩ | ⟨hh, _⟩)
      · rfl
      · exact absurd e hh
    · rename_i e
      refine ⟨fun hh => Or.inr ⟨e, hh⟩, ?_⟩
      rintro (⟨hh, _⟩ | ⟨_, hh⟩)
      · exact absurd hh e
      · exact hh
  have hold : ∀ m h, dictGet m s.identities = some h → (s.ids ++ [({ name := n } : IdImpl)])[h]? = s.ids[h]? := by
    intro m h hm
    obtain ⟨i, hi, _⟩ := hs.id m h hm
    have hlt := (List.getElem?_eq_some_iff.1 hi).1
    rw [List.getElem?_append_left hlt]
  have hnew : (s.ids ++ [({ name := n } : IdImpl)])[s.ids.length]? = some { name := n } := by
    rw [List.getElem?_append_right (Nat.le_refl _), Nat.sub_self]; rfl
  have hext : ∀ m h, dictGet m s.identities = some h → dictGet m (dictSet n s.ids.length s.identities) = some h := by
    intro m h hm
    refine (hl m h).2 (Or.inr ⟨?_, hm⟩)
    rintro rfl
    rw [hno] at hm
    nomatch hm
  refine ⟨⟨hs.cons, hs.names, ?_, ?_, ?_, ?_, hs.handles, hs.tpm, hs.content⟩, ⟨⟨fun m h hm => hext m h hm, ?_⟩, rfl, rfl⟩⟩
  · intro m h hm
    rcases (hl m h).1 hm with ⟨rfl, rfl⟩ | ⟨_, hm⟩
    · exact ⟨_, hnew, rfl, hn⟩
    · obtain ⟨i, hi, h2⟩ := hs.id m h hm
      exact ⟨i, (hold m h hm).trans hi, h2⟩
  · intro m h i k r hm hi hk
    rcases (hl m h).1 hm with ⟨rfl, rfl⟩ | ⟨_, hm⟩
    · have : some ({ name := m } : IdImpl) = some i := hnew.symm.trans hi
      cases this
      nomatch hk
    · exact hs.key m h i k r hm ((hold m h hm).symm.trans hi) hk
  · intro m h i r hm hi hk
    rcases (hl m h).1 hm with ⟨rfl, rfl⟩ | ⟨_, hm⟩
    · have : some ({ name := m } : IdImpl) = some i := hnew.symm.trans hi
      cases this
      nomatch hk
    · exact hs.defaultKey m h i r hm ((hold m h hm).symm.trans hi) hk
  · intro h hd
    obtain ⟨m, hm, hm2⟩ := hs.defaultIdentity h hd
    exact ⟨m, hext m h hm, hm2⟩
  · rintro k r ⟨m, h, i, h1, h2, h3⟩
    exact ⟨m, h, i, hext m h h1, (hold m h h1).trans h2, h3⟩

/-- Another identity is added to the PIB. -/
theorem coh_addIdentity (hs : Coh P strict s) {n : Name} (hn : n ∉ s.store.identities) :
    Coh P strict { s with store := (Store.addIdentity n s.store).2, identityNames := s.identityNames ++ [n] } := by
  have hm := Store.addIdentity_identities s.store n
  have hkey : ∀ k key, KeyFacts strict s.store k key → KeyFacts strict (Store.addIdentity n s.store).2 k key := fun k key hf =>
    hf.store rfl (fun _ _ => rfl) rfl fun c hc => (hs.cons.defaultCert k c hc).2
  refine ⟨Store.addIdentity_consistent hs.cons n, ?_, ?_, fun m h i k r h1 h2 h3 => ⟨(hs.key m h i k r h1 h2 h3).1, (hs.key m h i k r h1 h2 h3).2.elim fun key hk => ⟨key, hk.1, hkey _ _ hk.2⟩⟩, hs.defaultKey, ?_, hs.handles, hs.tpm, hs.content⟩
  · intro m
    show m ∈ s.identityNames ++ [n] ↔ m ∈ (Store.addIdentity n s.store).2.identities
    rw [hm, List.mem_append, hs.names, List.mem_singleton, or_comm]
  · intro m h hl
    obtain ⟨i, h1, h2, h3⟩ := hs.id m h hl
    exact ⟨i, h1, h2, (hm m).2 (Or.inr h3)⟩
  · intro h hd
    obtain ⟨m, hl, hd2⟩ := hs.defaultIdentity h hd
    refine ⟨m, hl, ?_⟩
    show (if s.store.defaultIdentity = none then some n else s.store.defaultIdentity) = some m
    rw [hd2, if_neg (fun hh => nomatch hh)]

/-- A key object for `k`, with the PIB `st`. -/
theorem coh_newKey (hs : Coh P strict s) {k : Name} {h : Nat} {i : IdImpl} (hl : LiveId s (identityOfKey k) h) (hi : s.ids[h]? = some i)
    (hno : dictGet k i.keys = none) {bits : Bytes} (hb : dictGet k s.store.keys = some bits) :
    Coh P strict { s with keys := s.keys ++ [{ name := k, bits := bits }], ids := s.ids.modify h fun i => { i with keys := dictSet k s.keys.length i.keys } } ∧
    Quiet s { s with keys := s.keys ++ [{ name := k, bits := bits }], ids := s.ids.modify h fun i => { i with keys := dictSet k s.keys.length i.keys } } := by
  have hid : ∀ h' i', (s.ids.modify h fun i => { i with keys := dictSet k s.keys.length i.keys })[h']? = some i' →
      ∃ i0, s.ids[h']? = some i0 ∧ i' = if h = h' then { i0 with keys := dictSet k s.keys.length i0.keys } else i0 := by
    intro h' i' hh
    rw [get_modify] at hh
    split at hh
    · rename_i e
      cases h0 : s.ids[h']? with
      | none => rw [h0] at hh; nomatch hh
      | some i0 => rw [h0] at hh; cases hh; exact ⟨i0, rfl, by rw [if_pos e]⟩
    · rename_i e
      exact ⟨i', hh, by rw [if_neg e]⟩
  have hid2 : ∀ h' i0, s.ids[h']? = some i0 → (s.ids.modify h fun i => { i with keys := dictSet k s.keys.length i.keys })[h']? =
      some (if h = h' then { i0 with keys := dictSet k s.keys.length i0.keys } else i0) := by
    intro h' i0 hh
    rw [get_modify]
    split
    · rw [hh]; rfl
    · exact hh
  have hkey : ∀ (r : Nat) (key : KeyImpl), s.keys[r]? = some key → (s.keys ++ [({ name := k, bits := bits } : KeyImpl)])[r]? = some key := by
    intro r key hr
    have hlt := (List.getElem?_eq_some_iff.1 hr).1
    rw [List.getElem?_append_left hlt]; exact hr
  have hnew : (s.keys ++ [({ name := k, bits := bits } : KeyImpl)])[s.keys.length]? = some { name := k, bits := bits } := by
    rw [List.getElem?_append_right (Nat.le_refl _), Nat.sub_self]; rfl
  refine ⟨⟨hs.cons, hs.names, ?_, ?_, ?_, hs.defaultIdentity, hs.handles, hs.tpm, hs.content⟩, ⟨⟨fun m h hm => hm, ?_⟩, rfl, rfl⟩⟩
  · intro n h' hl'
    obtain ⟨i0, h1, h2, h3⟩ := hs.id n h' hl'
    refine ⟨_, hid2 h' i0 h1, ?_, h3⟩
    split <;> exact h2
  · intro n h' i' k' r' hl' hi' hk'
    obtain ⟨i0, h1, h2⟩ := hid h' i' hi'
    subst h2
    split at hk'
    · rename_i e
      subst e
      have hk2 : dictGet k' (dictSet k s.keys.length i0.keys) = some r' := hk'
      rw [get_set] at hk2
      split at hk2
      · rename_i e
        subst e
        cases hk2
        refine ⟨?_, _, hnew, ⟨rfl, hb, fun _ _ hh => (nomatch hh), fun _ hh => (nomatch hh)⟩⟩
        obtain ⟨ia, ha1, ha2, _⟩ := hs.id _ h hl
        obtain ⟨ib, hb1, hb2, _⟩ := hs.id _ h hl'
        rw [ha1] at hb1
        cases hb1
        exact ha2.symm.trans hb2
      · obtain ⟨g1, key, g2, g3⟩ := hs.key n h i0 k' r' hl' h1 hk2
        exact ⟨g1, key, hkey _ _ g2, g3⟩
    · obtain ⟨g1, key, g2, g3⟩ := hs.key n h' i0 k' r' hl' h1 hk'
      exact ⟨g1, key, hkey _ _ g2, g3⟩
  · intro n h' i' r' hl' hi' hk'
    obtain ⟨i0, h1, h2⟩ := hid h' i' hi'
    subst h2
    have hk2 : i0.defaultKey = some r' := by split at hk' <;> exact hk'
    obtain ⟨k', g1, g2⟩ := hs.defaultKey n h' i0 r' hl' h1 hk2
    refine ⟨k', ?_, g2⟩
    split
    · show dictGet k' (dictSet k s.keys.length i0.keys) = some r'
      rw [get_set, if_neg]
      · exact g1
      · rename_i e
        rintro rfl
        subst e
        rw [hi] at h1
        cases h1
        rw [hno] at g1
        nomatch g1
    · exact g1
  · rintro k' r' ⟨m, h', i0, h1, h2, h3⟩
    refine ⟨m, h', _, h1, hid2 h' i0 h2, ?_⟩
    split
    · show dictGet k' (dictSet k s.keys.length i0.keys) = some r'
      rw [get_set, if_neg]
      · exact h3
      · rename_i e
        rintro rfl
        subst e
        rw [hi] at h2
        cases h2
        rw [hno] at h3
        nomatch h3
    · exact h3

/-- The stored PIB and one key object are changed. -/
theorem coh_setKey (hs : Coh P strict s) {k : Name} {r : Nat} (hl : LiveKey s k r) {f : KeyImpl → KeyImpl} {st : Store}
    (hf : ∀ key, s.keys[r]? = some key → KeyFacts strict s.store k key → KeyFacts strict st k (f key))
    (ho : ∀ k' key, k' ≠ k → KeyFacts strict s.store k' key → KeyFacts strict st k' key)
    (hcons : Consistent st) (hid : st.identities = s.store.identities) (hdi : ∀ n, s.store.defaultIdentity = some n → st.defaultIdentity = some n)
    (hdk : strict = true → ∀ n k', dictGet n s.store.defaultKeys = some k' → dictGet n st.defaultKeys = some k')
    (hk : ∀ k' b, dictGet k' st.keys = some b → dictGet k' s.store.keys = some b)
    (hc : ∀ c d, dictGet c st.certs = some d → dictGet (keyOfCert c) st.keys = d.content) :
    Coh P strict { s with store := st, keys := s.keys.modify r f } ∧ Ext s { s with store := st, keys := s.keys.modify r f } := by
  refine ⟨⟨hcons, ?_, ?_, ?_, ?_, ?_, hs.handles, ?_, hc⟩, ⟨fun _ _ h => h, fun _ _ h => h⟩⟩
  · intro n
    show n ∈ s.identityNames ↔ n ∈ st.identities
    rw [hid]; exact hs.names n
  · intro n h hl'
    obtain ⟨i, h1, h2, h3⟩ := hs.id n h hl'
    exact ⟨i, h1, h2, by show n ∈ st.identities; rw [hid]; exact h3⟩
  · intro n h i k' r' hl' hi hk'
    obtain ⟨g1, key, g2, g3⟩ := hs.key n h i k' r' hl' hi hk'
    refine ⟨g1, ?_⟩
    show ∃ key, (s.keys.modify r f)[r']? = some key ∧ KeyFacts strict st k' key
    rw [get_modify]
    by_cases e : r = r'
    · subst e
      obtain ⟨key0, q1, q2⟩ := hs.live hl
      rw [g2] at q1
      cases q1
      have hkk : k' = k := g3.name.symm.trans q2.name
      subst hkk
      rw [if_pos rfl, g2]
      exact ⟨_, rfl, hf key g2 g3⟩
    · rw [if_neg e]
      refine ⟨key, g2, ho k' key ?_ g3⟩
      rintro rfl
      subst g1
      exact e (Option.some.inj (((hs.liveKey_iff hl' hi).1 hl).symm.trans hk'))
  · intro n h i r' hl' hi hr
    obtain ⟨k', g1, g2⟩ := hs.defaultKey n h i r' hl' hi hr
    exact ⟨k', g1, fun hst => hdk hst n k' (g2 hst)⟩
  · intro h hd
    obtain ⟨n, h1, h2⟩ := hs.defaultIdentity h hd
    exact ⟨n, h1, hdi n h2⟩
  · intro k' b hb
    exact hs.tpm k' b (hk k' b hb)

/-- A key object is changed. -/
theorem coh_cache (hs : Coh P strict s) {k : Name} {r : Nat} (hl : LiveKey s k r) {f : KeyImpl → KeyImpl}
    (hf : ∀ key, s.keys[r]? = some key → KeyFacts strict s.store k key → KeyFacts strict s.store k (f key)) :
    Coh P strict { s with keys := s.keys.modify r f } ∧ Quiet s { s with keys := s.keys.modify r f } := by
  obtain ⟨h1, h2⟩ := coh_setKey hs hl (st := s.store) hf (fun _ _ _ h => h) hs.cons rfl (fun _ h => h) (fun _ _ _ h => h) (fun _ _ h => h) hs.content
  exact ⟨h1, ⟨h2, rfl, rfl⟩⟩

/-- The default key object of an identity. -/
theorem coh_setDefaultKey (hs : Coh P strict s) {n : Name} {h : Nat} {i : IdImpl} (hl : LiveId s n h) (hi : s.ids[h]? = some i) {o : Option Nat} {st : Store}
    (ho : ∀ r, o = some r → ∃ k, dictGet k i.keys = some r ∧ (strict = true → dictGet n st.defaultKeys = some k))
    (hst : st = { s.store with defaultKeys := st.defaultKeys }) (hcons : Consistent st)
    (hother : ∀ m, m ≠ n → dictGet m st.defaultKeys = dictGet m s.store.defaultKeys) :
    Coh P strict { s with store := st, ids := s.ids.modify h fun i => { i with defaultKey := o } } ∧
    Ext s { s with store := st, ids := s.ids.modify h fun i => { i with defaultKey := o } } := by
  have hid : ∀ h' i', (s.ids.modify h fun i => { i with defaultKey := o })[h']? = some i' →
      ∃ i0, s.ids[h']? = some i0 ∧ i' = if h = h' then { i0 with defaultKey := o } else i0 := by
    intro h' i' hh
    rw [get_modify] at hh
    split at hh
    · rename_i e
      cases h0 : s.ids[h']? with
      | none => rw [h0] at hh; nomatch hh
      | some i0 => rw [h0] at hh; cases hh; exact ⟨i0, rfl, by rw [if_pos e]⟩
    · rename_i e
      exact ⟨i', hh, by rw [if_neg e]⟩
  have hid2 : ∀ h' i0, s.ids[h']? = some i0 → (s.ids.modify h fun i => { i with defaultKey := o })[h']? =
      some (if h = h' then { i0 with defaultKey := o } else i0) := by
    intro h' i0 hh
    rw [get_modify]
    split
    · rw [hh]; rfl
    · exact hh
  have e1 : st.identities = s.store.identities := by rw [hst]
  have e2 : st.defaultIdentity = s.store.defaultIdentity := by rw [hst]
  have e3 : st.keys = s.store.keys := by rw [hst]
  have e4 : st.certs = s.store.certs := by rw [hst]
  have e5 : st.defaultCerts = s.store.defaultCerts := by rw [hst]
  refine ⟨⟨hcons, ?_, ?_, ?_, ?_, ?_, hs.handles, ?_, ?_⟩, ⟨fun _ _ hh => hh, ?_⟩⟩
  · intro m
    show m ∈ s.identityNames ↔ m ∈ st.identities
    rw [e1]; exact hs.names m
  · intro m h' hl'
    obtain ⟨i0, h1, h2, h3⟩ := hs.id m h' hl'
    refine ⟨_, hid2 h' i0 h1, ?_, by show m ∈ st.identities; rw [e1]; exact h3⟩
    split <;> exact h2
  · intro m h' i' k' r' hl' hi' hk'
    obtain ⟨i0, h1, h2⟩ := hid h' i' hi'
    subst h2
    have hk2 : dictGet k' i0.keys = some r' := by split at hk' <;> exact hk'
    obtain ⟨g1, key, g2, g3⟩ := hs.key m h' i0 k' r' hl' h1 hk2
    exact ⟨g1, key, g2, g3.store (by rw [e3]) (fun _ _ => by rw [e4]) (by rw [e5]) fun c hc => (hs.cons.defaultCert _ c hc).2⟩
  · intro m h' i' r' hl' hi' hr'
    obtain ⟨i0, h1, h2⟩ := hid h' i' hi'
    subst h2
    split at hr'
    · rename_i e
      subst e
      rw [hi] at h1
      cases h1
      obtain ⟨k, q1, q2⟩ := ho r' hr'
      obtain ⟨ia, ha1, ha2, _⟩ := hs.id _ h hl
      obtain ⟨ib, hb1, hb2, _⟩ := hs.id _ h hl'
      rw [ha1] at hb1
      cases hb1
      have : m = n := hb2.symm.trans ha2
      subst this
      exact ⟨k, by rw [if_pos rfl]; exact q1, q2⟩
    · rename_i e
      obtain ⟨k, q1, q2⟩ := hs.defaultKey m h' i0 r' hl' h1 hr'
      refine ⟨k, by rw [if_neg e]; exact q1, fun hh => ?_⟩
      have hmn : m ≠ n := by
        rintro rfl
        exact e (Option.some.inj (hl.symm.trans hl'))
      exact (hother m hmn).trans (q2 hh)
  · intro h' hd
    obtain ⟨m, h1, h2⟩ := hs.defaultIdentity h' hd
    exact ⟨m, h1, e2.trans h2⟩
  · intro k b hb
    exact hs.tpm k b (by rw [← e3]; exact hb)
  · intro c d hc
    show dictGet (keyOfCert c) st.keys = _
    rw [e3]
    exact hs.content c d (by rw [← e4]; exact hc)
  · rintro k' r' ⟨m, h', i0, h1, h2, h3⟩
    refine ⟨m, h', _, h1, hid2 h' i0 h2, ?_⟩
    split <;> exact h3

/-- A key is added to the PIB. -/
theorem coh_addKey (hs : Coh P strict s) {k : Name} (hv : isValidKeyName k = true) (hid : identityOfKey k ∈ s.store.identities)
    (hno : dictGet k s.store.keys = none) {p : Nat} (hp : dictGet k s.tpm = some p) :
    Coh P strict { s with store := (Store.addKey (identityOfKey k) k (P.publicKey p) s.store).2 } := by
  have e1 : (Store.addKey (identityOfKey k) k (P.publicKey p) s.store).2.identities = s.store.identities := by
    show (if identityOfKey k ∈ s.store.identities then s.store.identities else _) = _
    rw [if_pos hid]
  have e2 : ∀ k', dictGet k' (Store.addKey (identityOfKey k) k (P.publicKey p) s.store).2.keys = if k' = k then some (P.publicKey p) else dictGet k' s.store.keys := by
    intro k'
    show dictGet k' (dictSet k (P.publicKey p) s.store.keys) = _
    rw [get_set]
  refine ⟨Store.addKey_consistent hs.cons hv _, ?_, ?_, ?_, ?_, ?_, hs.handles, ?_, ?_⟩
  · intro m
    dsimp only
    rw [e1]; exact hs.names m
  · intro m h' hl'
    dsimp only
    rw [e1]; exact hs.id m h' hl'
  · intro m h i k' r h1 h2 h3
    obtain ⟨g1, key, g2, g3⟩ := hs.key m h i k' r h1 h2 h3
    refine ⟨g1, key, g2, g3.store ?_ (fun _ _ => rfl) rfl fun c hc => (hs.cons.defaultCert _ c hc).2⟩
    dsimp only
    rw [e2, if_neg]
    rintro rfl
    have := g3.bits
    rw [hno] at this
    nomatch this
  · intro m h i r h1 h2 h3
    obtain ⟨k', g1, g2⟩ := hs.defaultKey m h i r h1 h2 h3
    refine ⟨k', g1, fun hh => ?_⟩
    show dictGet m (if dictGet (identityOfKey k) s.store.defaultKeys = none then dictSet (identityOfKey k) k s.store.defaultKeys else s.store.defaultKeys) = some k'
    split
    · rename_i e
      rw [get_set, if_neg]
      · exact g2 hh
      · rintro rfl
        rw [g2 hh] at e
        nomatch e
    · exact g2 hh
  · intro h hd
    obtain ⟨m, h1, h2⟩ := hs.defaultIdentity h hd
    refine ⟨m, h1, ?_⟩
    show (if s.store.defaultIdentity = none then some (identityOfKey k) else s.store.defaultIdentity) = some m
    rw [h2, if_neg (fun hh => nomatch hh)]
  · intro k' b hb
    dsimp only at hb
    rw [e2] at hb
    split at hb
    · rename_i e
      subst e
      cases hb
      exact ⟨p, hp, rfl⟩
    · exact hs.tpm k' b hb
  · intro c d hc
    dsimp only
    rw [e2, if_neg]
    · exact hs.content c d hc
    · intro e
      obtain ⟨_, ⟨b, hb⟩, _⟩ := hs.cons.cert c d hc
      rw [e, hno] at hb
      nomatch hb

/-- The object of a key is removed, and the key is removed from the PIB. -/
theorem coh_removeKey (hs : Coh P strict s) {k : Name} (hv : isValidKeyName k = true) {h : Nat} {i : IdImpl} (hl : LiveId s (identityOfKey k) h) (hi : s.ids[h]? = some i)
    (hd : ∀ r, i.defaultKey = some r → dictGet k i.keys ≠ some r) (hst : strict = true → ∀ k', dictGet (identityOfKey k) s.store.defaultKeys = some k' → k' = k) :
    Coh P strict { s with store := (Store.removeKey k s.store).2, ids := s.ids.modify h fun i => { i with keys := dictDel k i.keys } } := by
  have hid : ∀ h' i', (s.ids.modify h fun i => { i with keys := dictDel k i.keys })[h']? = some i' →
      ∃ i0, s.ids[h']? = some i0 ∧ i' = if h = h' then { i0 with keys := dictDel k i0.keys } else i0 := by
    intro h' i' hh
    rw [get_modify] at hh
    split at hh
    · rename_i e
      cases h0 : s.ids[h']? with
      | none => rw [h0] at hh; nomatch hh
      | some i0 => rw [h0] at hh; cases hh; exact ⟨i0, rfl, by rw [if_pos e]⟩
    · rename_i e
      exact ⟨i', hh, by rw [if_neg e]⟩
  have hid2 : ∀ h' i0, s.ids[h']? = some i0 → (s.ids.modify h fun i => { i with keys := dictDel k i.keys })[h']? =
      some (if h = h' then { i0 with keys := dictDel k i0.keys } else i0) := by
    intro h' i0 hh
    rw [get_modify]
    split
    · rw [hh]; rfl
    · exact hh
  have hcons := Store.removeKey_consistent hs.cons k
  obtain ⟨s', e, g0, g1, g2, g3, g4, g5, g6⟩ := Store.removeKey_spec (Store.named hs.cons) hv
  rw [e] at hcons ⊢
  dsimp only at hcons ⊢
  refine ⟨hcons, ?_, ?_, ?_, ?_, ?_, hs.handles, ?_, ?_⟩
  · intro m
    dsimp only
    rw [g2]; exact hs.names m
  · intro m h' hl'
    obtain ⟨i0, h1, h2, h3⟩ := hs.id m h' hl'
    refine ⟨_, hid2 h' i0 h1, ?_, by show m ∈ s'.identities; rw [g2]; exact h3⟩
    split <;> exact h2
  · intro m h' i' k' r' hl' hi' hk'
    obtain ⟨i0, h1, h2⟩ := hid h' i' hi'
    subst h2
    have hk2 : dictGet k' i0.keys = some r' ∧ k' ≠ k := by
      split at hk'
      · have hk3 : dictGet k' (dictDel k i0.keys) = some r' := hk'
        rw [get_del] at hk3
        split at hk3
        · nomatch hk3
        · rename_i hne; exact ⟨hk3, hne⟩
      · rename_i hne
        refine ⟨hk', ?_⟩
        rintro rfl
        obtain ⟨q1, _⟩ := hs.key m h' i0 _ r' hl' h1 hk'
        subst q1
        exact hne (Option.some.inj (hl.symm.trans hl'))
    obtain ⟨q1, key, q2, q3⟩ := hs.key m h' i0 k' r' hl' h1 hk2.1
    refine ⟨q1, key, q2, q3.store ?_ ?_ ?_ fun c hc => (hs.cons.defaultCert _ c hc).2⟩
    · rw [g4, if_neg hk2.2]
    · intro c hc
      rw [g5, if_neg (by rw [hc]; exact hk2.2)]
    · rw [g6, if_neg hk2.2]
  · intro m h' i' r' hl' hi' hr'
    obtain ⟨i0, h1, h2⟩ := hid h' i' hi'
    subst h2
    have hr2 : i0.defaultKey = some r' := by split at hr' <;> exact hr'
    obtain ⟨k', q1, q2⟩ := hs.defaultKey m h' i0 r' hl' h1 hr2
    obtain ⟨q3, _⟩ := hs.key m h' i0 k' r' hl' h1 q1
    by_cases ee : h = h'
    · subst ee
      rw [hi] at h1
      cases h1
      have hne : k' ≠ k := by
        rintro rfl
        exact hd r' hr2 q1
      have hm : m = identityOfKey k := by
        obtain ⟨ia, ha1, ha2, _⟩ := hs.id _ h hl
        obtain ⟨ib, hb1, hb2, _⟩ := hs.id _ h hl'
        rw [ha1] at hb1
        cases hb1
        exact hb2.symm.trans ha2
      refine ⟨k', ?_, fun hh => ?_⟩
      · rw [if_pos rfl]
        show dictGet k' (dictDel k i.keys) = _
        rw [get_del, if_neg hne]
        exact q1
      · subst hm
        exact absurd (hst hh k' (q2 hh)) hne
    · refine ⟨k', by rw [if_neg ee]; exact q1, fun hh => ?_⟩
      dsimp only
      rw [g3, if_neg]
      · exact q2 hh
      · rintro rfl
        exact ee (Option.some.inj (hl.symm.trans hl'))
  · intro h' hd'
    obtain ⟨m, h1, h2⟩ := hs.defaultIdentity h' hd'
    exact ⟨m, h1, g1.trans h2⟩
  · intro k' b hb
    dsimp only at hb
    rw [g4] at hb
    split at hb
    · nomatch hb
    · exact hs.tpm k' b hb
  · intro c d hc
    dsimp only at hc ⊢
    rw [g5] at hc
    split at hc
    · nomatch hc
    · rename_i hne
      rw [g4, if_neg hne]
      exact hs.content c d hc

/-- A private key is removed of a key that is not in the PIB. -/
theorem coh_tpmDelete (hs : Coh P strict s) {k : Name} (hk : dictGet k s.store.keys = none) :
    Coh P strict { s with handles := dictDel k s.handles, tpm := dictDel k s.tpm } := by
  refine ⟨hs.cons, hs.names, hs.id, hs.key, hs.defaultKey, hs.defaultIdentity, ?_, ?_, hs.content⟩
  · intro k' p hp
    have hp' : dictGet k' (dictDel k s.handles) = some p := hp
    show dictGet k' (dictDel k s.tpm) = some p
    rw [get_del] at hp' ⊢
    split at hp'
    · nomatch hp'
    · rename_i e
      rw [if_neg e]
      exact hs.handles k' p hp'
  · intro k' b hb
    obtain ⟨p, h1, h2⟩ := hs.tpm k' b hb
    refine ⟨p, ?_, h2⟩
    show dictGet k' (dictDel k s.tpm) = some p
    rw [get_del, if_neg]
    · exact h1
    · rintro rfl
      have hb' : dictGet k' s.store.keys = some b := hb
      rw [hk] at hb'
      nomatch hb'

/-- A private key is added for a key that is not in the PIB. -/
theorem coh_tpmAdd (hs : Coh P strict s) {k : Name} (hk : dictGet k s.store.keys = none) (p : Nat) :
    Coh P strict { s with handles := dictSet k p s.handles, tpm := dictSet k p s.tpm } := by
  refine ⟨hs.cons, hs.names, hs.id, hs.key, hs.defaultKey, hs.defaultIdentity, ?_, ?_, hs.content⟩
  · intro k' q hp
    have hp' : dictGet k' (dictSet k p s.handles) = some q := hp
    show dictGet k' (dictSet k p s.tpm) = some q
    rw [get_set] at hp' ⊢
    split at hp'
    · rename_i e
      rw [if_pos e]
      exact hp'
    · rename_i e
      rw [if_neg e]
      exact hs.handles k' q hp'
  · intro k' b hb
    obtain ⟨q, h1, h2⟩ := hs.tpm k' b hb
    refine ⟨q, ?_, h2⟩
    show dictGet k' (dictSet k p s.tpm) = some q
    rw [get_set, if_neg]
    · exact h1
    · rintro rfl
      have hb' : dictGet k' s.store.keys = some b := hb
      rw [hk] at hb'
      nomatch hb'

/-- A private key is imported for a key that is not in the PIB and not in the TPM. -/
theorem coh_tpmImport (hs : Coh P strict s) {k : Name} (hk : dictGet k s.tpm = none) (p : Nat) :
    Coh P strict { s with tpm := dictSet k p s.tpm } := by
  refine ⟨hs.cons, hs.names, hs.id, hs.key, hs.defaultKey, hs.defaultIdentity, ?_, ?_, hs.content⟩
  · intro k' q hp
    have h1 := hs.handles k' q hp
    show dictGet k' (dictSet k p s.tpm) = some q
    rw [get_set, if_neg]
    · exact h1
    · rintro rfl
      rw [hk] at h1
      nomatch h1
  · intro k' b hb
    obtain ⟨q, h1, h2⟩ := hs.tpm k' b hb
    refine ⟨q, ?_, h2⟩
    show dictGet k' (dictSet k p s.tpm) = some q
    rw [get_set, if_neg]
    · exact h1
    · rintro rfl
      rw [hk] at h1
      nomatch h1

/-- The handle of a private key is kept. -/
theorem coh_handle (hs : Coh P strict s) {k : Name} {p : Nat} (hk : dictGet k s.tpm = some p) :
    Coh P strict { s with handles := dictSet k p s.handles } ∧ Quiet s { s with handles := dictSet k p s.handles } := by
  refine ⟨⟨hs.cons, hs.names, hs.id, hs.key, hs.defaultKey, hs.defaultIdentity, ?_, hs.tpm, hs.content⟩, ⟨⟨fun _ _ h => h, fun _ _ h => h⟩, rfl, rfl⟩⟩
  intro k' q hp
  have hp' : dictGet k' (dictSet k p s.handles) = some q := hp
  rw [get_set] at hp'
  split at hp'
  · rename_i e
    subst e
    cases hp'
    exact hk
  · exact hs.handles k' q hp'

/-- An identity is removed, with its object. -/
theorem coh_removeIdentity (hs : Coh P strict s) (n : Name) (o : Option Nat)
    (ho : ∀ h, o = some h → s.defaultIdentity = some h ∧ ¬ LiveId s n h) :
    Coh P strict { s with store := (Store.removeIdentity n s.store).2, identityNames := s.identityNames.filter (· ≠ n), identities := dictDel n s.identities, defaultIdentity := o } := by
  have hcons := Store.removeIdentity_consistent hs.cons n
  obtain ⟨s', e, g0, g1, g2, g3, g4, g5, g6⟩ := Store.removeIdentity_spec hs.cons n
  rw [e] at hcons ⊢
  dsimp only at hcons ⊢
  have hl : ∀ m h, dictGet m (dictDel n s.identities) = some h → dictGet m s.identities = some h ∧ m ≠ n := by
    intro m h hm
    rw [get_del] at hm
    split at hm
    · nomatch hm
    · rename_i hne; exact ⟨hm, hne⟩
  refine ⟨hcons, ?_, ?_, ?_, ?_, ?_, hs.handles, ?_, ?_⟩
  · intro m
    dsimp only
    rw [g2, List.mem_filter, List.mem_filter, hs.names]
  · intro m h hm
    obtain ⟨h1, h2⟩ := hl m h hm
    obtain ⟨i, q1, q2, q3⟩ := hs.id m h h1
    refine ⟨i, q1, q2, ?_⟩
    dsimp only
    rw [g2, List.mem_filter]
    exact ⟨q3, by simpa using h2⟩
  · intro m h i k r hm hi hk
    obtain ⟨h1, h2⟩ := hl m h hm
    obtain ⟨q1, key, q2, q3⟩ := hs.key m h i k r h1 hi hk
    have hne : identityOfKey k ≠ n := by rw [q1]; exact h2
    refine ⟨q1, key, q2, q3.store ?_ ?_ ?_ fun c hc => (hs.cons.defaultCert _ c hc).2⟩
    · rw [g4, if_neg hne]
    · intro c hc
      rw [g5, if_neg (by rw [hc]; exact hne)]
    · rw [g6, if_neg hne]
  · intro m h i r hm hi hr
    obtain ⟨h1, h2⟩ := hl m h hm
    obtain ⟨k, q1, q2⟩ := hs.defaultKey m h i r h1 hi hr
    exact ⟨k, q1, fun hh => by rw [g3, if_neg h2]; exact q2 hh⟩
  · intro h hd
    obtain ⟨h1, h2⟩ := ho h hd
    obtain ⟨m, q1, q2⟩ := hs.defaultIdentity h h1
    have hne : m ≠ n := by rintro rfl; exact h2 q1
    refine ⟨m, ?_, ?_⟩
    · show dictGet m (dictDel n s.identities) = some h
      rw [get_del, if_neg hne]
      exact q1
    · dsimp only
      rw [g1, q2, if_neg]
      intro hh
      exact hne (Option.some.inj hh)
  · intro k' b hb
    dsimp only at hb
    rw [g4] at hb
    split at hb
    · nomatch hb
    · exact hs.tpm k' b hb
  · intro c d hc
    dsimp only at hc ⊢
    rw [g5] at hc
    split at hc
    · nomatch hc
    · rename_i hne
      rw [g4, if_neg hne]
      exact hs.content c d hc

/-- The default identity. -/
theorem coh_setDefaultIdentity (hs : Coh P strict s) {n : Name} {h : Nat} (hl : LiveId s n h) :
    Coh P strict { s with store := (Store.setDefaultIdentity n s.store).2, defaultIdentity := some h } := by
  obtain ⟨_, _, _, hn⟩ := hs.id n h hl
  have e1 : (Store.setDefaultIdentity n s.store).2.identities = s.store.identities := by
    show (if n ∈ s.store.identities then s.store.identities else _) = _
    rw [if_pos hn]
  refine ⟨Store.setDefaultIdentity_consistent hs.cons n, ?_, ?_, ?_, hs.defaultKey, ?_, hs.handles, hs.tpm, hs.content⟩
  · intro m
    dsimp only
    rw [e1]; exact hs.names m
  · intro m h' hl'
    dsimp only
    rw [e1]; exact hs.id m h' hl'
  · intro m h i k' r h1 h2 h3
    obtain ⟨g1, key, g2, g3⟩ := hs.key m h i k' r h1 h2 h3
    exact ⟨g1, key, g2, g3.store rfl (fun _ _ => rfl) rfl fun c hc => (hs.cons.defaultCert _ c hc).2⟩
  · intro h' hd
    cases (show some h = some h' from hd)
    exact ⟨n, hl, rfl⟩

/-- The object of the default identity is kept. -/
theorem coh_defaultIdentity (hs : Coh P strict s) {n : Name} {h : Nat} (hl : LiveId s n h) (hd : s.store.defaultIdentity = some n) :
    Coh P strict { s with defaultIdentity := some h } ∧ Quiet s { s with defaultIdentity := some h } := by
  refine ⟨⟨hs.cons, hs.names, hs.id, hs.key, hs.defaultKey, ?_, hs.handles, hs.tpm, hs.content⟩, ⟨⟨fun _ _ h => h, fun _ _ h => h⟩, rfl, rfl⟩⟩
  intro h' hd'
  cases (show some h = some h' from hd')
  exact ⟨n, hl, hd⟩

theorem coh_restart (hs : Coh P strict s) :
    Coh P strict { s with identityNames := s.store.identities, identities := [], defaultIdentity := none, handles := [] } :=
  ⟨hs.cons, fun _ => Iff.rfl, fun _ _ h => (nomatch h), fun _ _ _ _ _ h => (nomatch h), fun _ _ _ _ h => (nomatch h),
    fun _ h => (nomatch h), fun _ _ h => (nomatch h), hs.tpm, hs.content⟩

theorem coh_setTpmLocator (hs : Coh P strict s) (l : Bytes) : Coh P strict { s with store := { s.store with tpmLocator := l } } := by
  have hc := hs.cons
  refine ⟨⟨hc.defaultIdentity, hc.key, hc.defaultKey, hc.cert, hc.defaultCert⟩, hs.names, hs.id, ?_, hs.defaultKey, hs.defaultIdentity, hs.handles, hs.tpm, hs.content⟩
  intro m h i k' r h1 h2 h3
  obtain ⟨g1, key, g2, g3⟩ := hs.key m h i k' r h1 h2 h3
  exact ⟨g1, key, g2, g3.store rfl (fun _ _ => rfl) rfl fun c hc => (hs.cons.defaultCert _ c hc).2⟩

end KeyChain
end PyNDN
