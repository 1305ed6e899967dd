import Verif.Lemmas.KeyCoherent
/-
The methods of the KeyChain, in a coherent state.
-/
namespace PyNDN
namespace KeyChain
open PSync (dictGet dictSet dictDel dictGet_none dictGet_some)
open Spec.KeyChain

variable {P : Params} {strict : Bool} {s : KC}

theorem onStore_eq {m : M Store α} {r : Except KErr α} {st : Store} (h : m s.store = (r, st)) : onStore m s = (r, { s with store := st }) := by
  unfold onStore; rw [h]

theorem onStore_same {m : M Store α} {r : Except KErr α} (h : m s.store = (r, s.store)) : onStore m s = (r, s) := onStore_eq h

theorem keysOf_run (hs : Coh P strict s) (n : Name) : ∃ l, onStore (Store.getKeysOfIdentity n) s = (.ok l, s) :=
  ⟨_, onStore_same (Store.getKeysOfIdentity_eq (Store.named hs.cons) n)⟩

theorem certsOf_run (hs : Coh P strict s) (k : Name) : ∃ l, onStore (Store.getCertificatesOfKey k) s = (.ok l, s) :=
  ⟨_, onStore_same (Store.getCertificatesOfKey_eq (Store.named hs.cons) k)⟩

theorem getIdentity_spec (hs : Coh P strict s) (n : Name) : After (getIdentity n) s fun r s' => Coh P strict s' ∧ Quiet s s' ∧
    match r with
    | .ok h => LiveId s' n h ∧ n ∈ s.store.identities
    | .error e => e = .pib ∧ n ∉ s.store.identities := by
  unfold After getIdentity
  rw [get_bind]
  cases hl : dictGet n s.identities with
  | some h => exact ⟨hs, Quiet.refl s, hl, (hs.id n h hl).elim fun i hi => hi.2.2⟩
  | none =>
    dsimp only
    obtain ⟨l, e⟩ := keysOf_run hs n
    by_cases hn : n ∈ s.store.identities
    · have := coh_loadId hs hn hl
      have e2 : loadId n false s = (.ok s.ids.length, { s with ids := s.ids ++ [{ name := n }] }) := by
        unfold loadId
        rw [bind_ok e, if_neg (by decide), get_bind, check_true _ (decide_eq_true hn)]
        rfl
      rw [bind_ok e2]
      exact ⟨this.1, this.2, by show dictGet n (dictSet n s.ids.length s.identities) = _; rw [get_set, if_pos rfl], hn⟩
    · have e2 : loadId n false s = (.error .pib, s) := by
        unfold loadId
        rw [bind_ok e, if_neg (by decide), get_bind, check_false _ (decide_eq_false hn)]
      rw [bind_err e2]
      exact ⟨hs, Quiet.refl s, rfl, hn⟩

theorem addIdentity_spec (hs : Coh P strict s) (n : Name) : After (addIdentity n) s fun r s' => Coh P strict s' ∧ Ext s s' ∧ s'.tpm = s.tpm ∧
    s'.store = (if n ∈ s.store.identities then s.store else (Store.addIdentity n s.store).2) ∧ ∃ h, r = .ok h ∧ LiveId s' n h := by
  unfold addIdentity
  unfold After
  rw [get_bind]
  by_cases hn : n ∈ s.store.identities
  · rw [if_pos ((hs.names n).2 hn)]
    obtain ⟨h1, h2, h3⟩ := getIdentity_spec hs n
    rw [if_pos hn]
    cases e : (getIdentity n s).1 with
    | error x => rw [e] at h3; exact absurd hn h3.2
    | ok h => rw [e] at h3; exact ⟨h1, h2.ext, h2.tpm, h2.store, h, rfl, h3.1⟩
  · rw [if_neg (fun hh => hn ((hs.names n).1 hh)), modify_bind]
    have hcoh := coh_addIdentity hs hn
    have hno : dictGet n s.identities = none := by
      cases hd : dictGet n s.identities with
      | none => rfl
      | some h => exact absurd ((hs.id n h hd).elim fun i hi => hi.2.2) hn
    obtain ⟨h1, h2⟩ := coh_loadId hcoh ((Store.addIdentity_identities s.store n n).2 (Or.inl rfl)) hno
    have e : loadId n true { s with identityNames := s.identityNames ++ [n] } = (.ok s.ids.length, { s with
        store := (Store.addIdentity n s.store).2, identityNames := s.identityNames ++ [n], ids := s.ids ++ [{ name := n }] }) := by
      unfold loadId
      rw [bind_ok (onStore_same (s := { s with identityNames := s.identityNames ++ [n] }) (Store.getKeysOfIdentity_eq (Store.named hs.cons) n))]
      rfl
    rw [bind_ok e, modify_bind]
    unfold getIdentity
    rw [get_bind]
    have e2 : dictGet n (dictSet n s.ids.length s.identities) = some s.ids.length := by rw [get_set, if_pos rfl]
    dsimp only
    rw [e2]
    refine ⟨h1, ⟨fun m h hm => h2.ext.id m h hm, fun k r hk => h2.ext.key k r ?_⟩, rfl, ?_, _, rfl, e2⟩
    · exact hk
    · rw [if_neg hn]; rfl

/-- `getKey`. -/
theorem keyGet_spec (S : Sound P) (hs : Coh P strict s) {n : Name} {h : Nat} (hl : LiveId s n h) (k : Name) :
    After (keyGet P h k) s fun r s' => Coh P strict s' ∧ Quiet s s' ∧
    match r with
    | .ok r => LiveKey s' k r ∧ isValidKeyName k = true ∧ identityOfKey k = n ∧ (∃ b, dictGet k s.store.keys = some b) ∧
        ∃ i, s'.ids[h]? = some i ∧ dictGet k i.keys = some r ∧ i.defaultKey = (s.ids[h]?.bind (·.defaultKey)) ∧ i.name = n
    | .error e => ¬ (isValidKeyName k = true ∧ identityOfKey k = n) ∧ e = .py .value ∧ s' = s ∨ e = .pib ∧ dictGet k s.store.keys = none := by
  obtain ⟨i, hi, hin, hmem⟩ := hs.id n h hl
  unfold After keyGet
  rw [idImpl_some hi]
  cases hc : (isValidKeyName k && i.name.equals (identityOfKey k)) with
  | false =>
    refine ⟨hs, Quiet.refl s, Or.inl ⟨?_, rfl, rfl⟩⟩
    rintro ⟨h1, h2⟩
    rw [h1, hin, equals_iff.2 h2.symm] at hc
    nomatch hc
  | true =>
    rw [check_true _ rfl]
    obtain ⟨hv, he⟩ := Bool.and_eq_true _ _ ▸ hc
    have hidk : identityOfKey k = n := (equals_iff.1 he).symm.trans hin
    subst hidk
    cases hk : dictGet k i.keys with
    | some r =>
      obtain ⟨_, key, _, g⟩ := hs.key _ h i k r hl hi hk
      exact ⟨hs, Quiet.refl s, ⟨_, h, i, hl, hi, hk⟩, hv, rfl, ⟨_, g.bits⟩, i, hi, hk, by rw [hi]; rfl, hin⟩
    | none =>
      dsimp only
      unfold loadKey
      rw [bind_run, check_true _ hv]
      obtain ⟨l, e⟩ := certsOf_run hs k
      rw [bind_ok e]
      cases hb : dictGet k s.store.keys with
      | none =>
        have e2 : onStore (Store.getKeyBits k) s = (.error .pib, s) := onStore_same (by
          show (orRaise (dictGet k s.store.keys) .pib : M Store _) s.store = _
          rw [hb]; rfl)
        rw [bind_err e2]
        exact ⟨hs, Quiet.refl s, Or.inr ⟨rfl, rfl⟩⟩
      | some bits =>
        have e2 : onStore (Store.getKeyBits k) s = (.ok bits, s) := onStore_same (by
          show (orRaise (dictGet k s.store.keys) .pib : M Store _) s.store = _
          rw [hb]; rfl)
        obtain ⟨p, hp, hpb⟩ := hs.tpm k bits hb
        have ht : (P.keyType bits).isSome = true := by
          rw [← hpb]
          rcases S.type p with h | h <;> rw [h] <;> rfl
        rw [bind_ok e2, check_true _ ht]
        obtain ⟨h1, h2⟩ := coh_newKey hs hl hi hk hb
        have hnew : (s.ids.modify h fun i => { i with keys := dictSet k s.keys.length i.keys })[h]? = some { i with keys := dictSet k s.keys.length i.keys } := by
          rw [get_modify, if_pos rfl, hi]; rfl
        have hg : dictGet k (dictSet k s.keys.length i.keys) = some s.keys.length := by rw [get_set, if_pos rfl]
        exact ⟨h1, h2, ⟨_, h, _, hl, hnew, hg⟩, hv, rfl, ⟨bits, rfl⟩, _, hnew, hg, by rw [hi]; rfl, hin⟩

/-- `getDefaultKey`. -/
theorem idGetDefaultKey_spec (S : Sound P) (hs : Coh P strict s) {n : Name} {h : Nat} (hl : LiveId s n h) :
    After (idGetDefaultKey P h) s fun r s' => Coh P strict s' ∧ Quiet s s' ∧
    match r with
    | .ok r => ∃ k, LiveKey s' k r ∧ identityOfKey k = n ∧ (strict = true → dictGet n s.store.defaultKeys = some k)
    | .error e => e = .pib ∧ dictGet n s.store.defaultKeys = none := by
  obtain ⟨i, hi, hin, hmem⟩ := hs.id n h hl
  unfold idGetDefaultKey
  unfold After
  rw [idImpl_some hi]
  cases hd : i.defaultKey with
  | some r =>
    obtain ⟨k, h1, h2⟩ := hs.defaultKey n h i r hl hi hd
    exact ⟨hs, Quiet.refl s, k, ⟨n, h, i, hl, hi, h1⟩, (hs.key n h i k r hl hi h1).1, h2⟩
  | none =>
    dsimp only
    rw [hin]
    cases hk : dictGet n s.store.defaultKeys with
    | none =>
      have e : onStore (Store.getDefaultKeyOfIdentity n) s = (.error .pib, s) := onStore_same (by
        show (orRaise (dictGet n s.store.defaultKeys) .pib : M Store _) s.store = _
        rw [hk]; rfl)
      rw [bind_err e]
      exact ⟨hs, Quiet.refl s, rfl, rfl⟩
    | some k =>
      have e : onStore (Store.getDefaultKeyOfIdentity n) s = (.ok k, s) := onStore_same (by
        show (orRaise (dictGet n s.store.defaultKeys) .pib : M Store _) s.store = _
        rw [hk]; rfl)
      rw [bind_ok e, bind_run]
      obtain ⟨⟨b, hb⟩, hki⟩ := hs.cons.defaultKey n k hk
      have hv := (hs.cons.key k b hb).1
      obtain ⟨g1, g2, g3⟩ := keyGet_spec S hs hl k
      cases eq : keyGet P h k s with
      | mk r s' =>
        rw [eq] at g1 g2 g3
        cases r with
        | error x =>
          rcases g3 with ⟨g3, _⟩ | ⟨_, g3⟩
          · exact absurd ⟨hv, hki⟩ g3
          · rw [hb] at g3; nomatch g3
        | ok r =>
          obtain ⟨q1, q2, q3, q4, i', q5, q6, q7, q8⟩ := g3
          have hl' := g2.ext.id n h hl
          obtain ⟨c1, c2⟩ := coh_setDefaultKey g1 hl' q5 (o := some r) (st := s'.store) (fun r' hr => ⟨k, by cases hr; exact q6, fun _ => by rw [g2.store]; exact hk⟩)
            rfl g1.cons (fun _ _ => rfl)
          refine ⟨c1, ⟨g2.ext.trans c2, g2.store, g2.tpm⟩, k, c2.key _ _ q1, q3, fun _ => rfl⟩

theorem getDefaultIdentity_spec (hs : Coh P strict s) : After getDefaultIdentity s fun r s' => Coh P strict s' ∧ Quiet s s' ∧
    match r with
    | .ok h => ∃ n, LiveId s' n h ∧ s.store.defaultIdentity = some n
    | .error e => e = .pib ∧ s.store.defaultIdentity = none := by
  unfold After getDefaultIdentity
  rw [get_bind]
  cases hd : s.defaultIdentity with
  | some h => exact ⟨hs, Quiet.refl s, hs.defaultIdentity h hd⟩
  | none =>
    dsimp only
    cases hn : s.store.defaultIdentity with
    | none =>
      have e : onStore Store.getDefaultIdentity s = (.error .pib, s) := onStore_same (by
        show (orRaise s.store.defaultIdentity .pib : M Store _) s.store = _
        rw [hn]; rfl)
      rw [bind_err e]
      exact ⟨hs, Quiet.refl s, rfl, rfl⟩
    | some n =>
      have e : onStore Store.getDefaultIdentity s = (.ok n, s) := onStore_same (by
        show (orRaise s.store.defaultIdentity .pib : M Store _) s.store = _
        rw [hn]; rfl)
      rw [bind_ok e, bind_run]
      obtain ⟨g1, g2, g3⟩ := getIdentity_spec hs n
      cases eq : getIdentity n s with
      | mk r s' =>
        rw [eq] at g1 g2 g3
        cases r with
        | error x => exact absurd (hs.cons.defaultIdentity n hn) g3.2
        | ok h =>
          obtain ⟨c1, c2⟩ := coh_defaultIdentity g1 g3.1 (by rw [g2.store]; exact hn)
          exact ⟨c1, g2.trans c2, n, c2.ext.id _ _ g3.1, rfl⟩

/-- `getCertificate`. -/
theorem certGet_spec (hs : Coh P strict s) {k : Name} {r : Nat} (hl : LiveKey s k r) (c : Name) : After (certGet r c) s fun x s' => Coh P strict s' ∧ Quiet s s' ∧
    match x with
    | .ok d => dictGet c s.store.certs = some d ∧ keyOfCert c = k
    | .error e => ¬ (isCertName c = true ∧ keyOfCert c = k) ∧ e = .py .value ∨ e = .pib ∧ dictGet c s.store.certs = none := by
  obtain ⟨key, hk, hf⟩ := hs.live hl
  unfold After certGet
  rw [keyImpl_some hk]
  cases hd : dictGet c key.certs with
  | some d => exact ⟨hs, Quiet.refl s, hf.certs c d hd⟩
  | none =>
    dsimp only
    cases hc : (isCertName c && (keyOfCert c).equals key.name) with
    | false =>
      refine ⟨hs, Quiet.refl s, Or.inl ⟨?_, rfl⟩⟩
      rintro ⟨h1, h2⟩
      rw [h1, hf.name, equals_iff.2 h2] at hc
      nomatch hc
    | true =>
      rw [check_true _ rfl]
      have hkc : keyOfCert c = k := (equals_iff.1 (Bool.and_eq_true _ _ ▸ hc).2).trans hf.name
      cases hs2 : dictGet c s.store.certs with
      | none =>
        have e : onStore (Store.getCertificate c) s = (.error .pib, s) := onStore_same (by
          show (orRaise (dictGet c s.store.certs) .pib : M Store _) s.store = _
          rw [hs2]; rfl)
        rw [bind_err e]
        exact ⟨hs, Quiet.refl s, Or.inr ⟨rfl, rfl⟩⟩
      | some d =>
        have e : onStore (Store.getCertificate c) s = (.ok d, s) := onStore_same (by
          show (orRaise (dictGet c s.store.certs) .pib : M Store _) s.store = _
          rw [hs2]; rfl)
        rw [bind_ok e]
        obtain ⟨h1, h2⟩ := coh_cache hs hl (f := fun key => { key with certs := dictSet c d key.certs }) fun key _ hf => ⟨hf.name, hf.bits, fun x y hx => by
          have hx' : dictGet x (dictSet c d key.certs) = some y := hx
          rw [get_set] at hx'
          split at hx'
          · rename_i e
            subst e
            cases hx'
            exact ⟨hs2, hkc⟩
          · exact hf.certs x y hx', hf.defaultCert⟩
        exact ⟨h1, h2, rfl, hkc⟩

/-- `getDefaultCertificate`. -/
theorem keyGetDefaultCertificate_spec (hs : Coh P strict s) {k : Name} {r : Nat} (hl : LiveKey s k r) :
    After (keyGetDefaultCertificate r) s fun x s' => Coh P strict s' ∧ Quiet s s' ∧
    match x with
    | .ok d => dictGet k s.store.defaultCerts = some d.name ∧ dictGet k s.store.keys = d.content ∧ (strict = true → dictGet d.name s.store.certs = some d)
    | .error e => e = .pib ∧ dictGet k s.store.defaultCerts = none := by
  obtain ⟨key, hk, hf⟩ := hs.live hl
  unfold After keyGetDefaultCertificate
  rw [keyImpl_some hk]
  cases hd : key.defaultCert with
  | some d => exact ⟨hs, Quiet.refl s, (hf.defaultCert d hd).1, by rw [(hf.defaultCert d hd).2.1]; exact hf.bits, (hf.defaultCert d hd).2.2⟩
  | none =>
    dsimp only
    rw [hf.name]
    cases hc : dictGet k s.store.defaultCerts with
    | none =>
      have e : onStore (Store.getDefaultCertificateOfKey k) s = (.error .pib, s) := onStore_same (by
        unfold Store.getDefaultCertificateOfKey
        rw [get_bind, orRaise_none _ hc])
      rw [bind_err e]
      exact ⟨hs, Quiet.refl s, rfl, rfl⟩
    | some c =>
      obtain ⟨⟨d, hdd⟩, hkc⟩ := hs.cons.defaultCert k c hc
      have hdn := (hs.cons.cert c d hdd).2.2
      have e : onStore (Store.getDefaultCertificateOfKey k) s = (.ok d, s) := onStore_same (by
        unfold Store.getDefaultCertificateOfKey
        rw [get_bind, orRaise_some _ hc, get_bind, hdd]
        rfl)
      rw [bind_ok e]
      have hcont := hs.content c d hdd
      rw [hkc] at hcont
      obtain ⟨h1, h2⟩ := coh_cache hs hl (f := fun key => { key with defaultCert := some d }) fun key _ hf => ⟨hf.name, hf.bits, hf.certs, fun x hx => by
          cases (show some d = some x from hx)
          exact ⟨by rw [hdn]; exact hc, hcont.symm.trans hf.bits, fun _ => by rw [hdn]; exact hdd⟩⟩
      exact ⟨h1, h2, by rw [hdn], hcont, fun _ => by rw [hdn]; exact hdd⟩

theorem findKey_spec (hs : Coh P strict s) (k : Name) : ∃ s', findKey k s = (.ok (dictGet k s.tpm), s') ∧ Coh P strict s' ∧ Quiet s s' := by
  unfold findKey
  rw [get_bind]
  cases hh : dictGet k s.handles with
  | some p => exact ⟨s, by rw [hs.handles k p hh]; rfl, hs, Quiet.refl s⟩
  | none =>
    dsimp only
    rw [get_bind]
    cases ht : dictGet k s.tpm with
    | none => exact ⟨s, rfl, hs, Quiet.refl s⟩
    | some p =>
      obtain ⟨h1, h2⟩ := coh_handle hs ht
      exact ⟨_, rfl, h1, h2⟩

theorem tpmSign_spec (hs : Coh P strict s) (random : Nat) (buffer : Bytes) (k : Name) :
    ∃ s', tpmSign P random buffer k s = (.ok ((dictGet k s.tpm).map fun p => P.sign p random buffer), s') ∧ Coh P strict s' ∧ Quiet s s' := by
  obtain ⟨s', e, h1, h2⟩ := findKey_spec hs k
  refine ⟨s', ?_, h1, h2⟩
  unfold tpmSign
  rw [bind_ok e]
  cases dictGet k s.tpm <;> rfl

/-! ### Certificates -/

theorem Store.addCertificate_eq {st : Store} {c : Data} {bits : Bytes} (hb : dictGet (keyOfCert c.name) st.keys = some bits) (hcont : c.content = some bits)
    (hid : identityOfKey (keyOfCert c.name) ∈ st.identities) (hck : checkCert c = .ok ()) :
    ∃ st', Store.addCertificate c st = (.ok (), st') ∧ st'.identities = st.identities ∧
      (∀ n, st.defaultIdentity = some n → st'.defaultIdentity = some n) ∧
      (∀ n k, dictGet n st.defaultKeys = some k → dictGet n st'.defaultKeys = some k) ∧
      (∀ k, dictGet k st'.keys = dictGet k st.keys) ∧
      (∀ x, dictGet x st'.certs = if x = c.name then some c else dictGet x st.certs) ∧
      (∀ k, dictGet k st'.defaultCerts = if k = keyOfCert c.name ∧ dictGet k st.defaultCerts = none then some c.name else dictGet k st.defaultCerts) := by
  refine ⟨(Store.addCertificate c st).2, ?_, ?_, ?_, ?_, ?_, ?_, ?_⟩ <;> unfold Store.addCertificate <;>
    rw [hck, hcont]
  · rfl
  · show (if identityOfCert c.name ∈ st.identities then st.identities else _) = _
    rw [if_pos (by rw [identityOfCert_eq]; exact hid)]
  · intro n hn
    show (if st.defaultIdentity = none then some (identityOfCert c.name) else st.defaultIdentity) = some n
    rw [if_neg (by rw [hn]; exact fun h => nomatch h)]
    exact hn
  · intro n k hn
    show dictGet n (if dictGet (identityOfCert c.name) st.defaultKeys = none then dictSet (identityOfCert c.name) (keyOfCert c.name) st.defaultKeys else st.defaultKeys) = some k
    split
    · rename_i e
      rw [get_set, if_neg]
      · exact hn
      · rintro rfl
        rw [hn] at e
        nomatch e
    · exact hn
  · intro k
    show dictGet k (dictSet (keyOfCert c.name) bits st.keys) = _
    rw [get_set]
    split
    · rename_i e; rw [e, hb]
    · rfl
  · intro x
    show dictGet x (dictSet c.name c st.certs) = _
    rw [get_set]
  · intro k
    show dictGet k (if dictGet (keyOfCert c.name) st.defaultCerts = none then dictSet (keyOfCert c.name) c.name st.defaultCerts else st.defaultCerts) = _
    split
    · rename_i e
      rw [get_set]
      by_cases hk : k = keyOfCert c.name
      · subst hk; rw [if_pos rfl, if_pos ⟨rfl, e⟩]
      · rw [if_neg hk, if_neg (fun h => hk h.1)]
    · rename_i e
      rw [if_neg]
      rintro ⟨rfl, h⟩
      exact e h

/-- The stored key of an object, and its identity. -/
theorem Coh.stored (hs : Coh P strict s) {k : Name} {r : Nat} (hl : LiveKey s k r) :
    ∃ key, s.keys[r]? = some key ∧ KeyFacts strict s.store k key ∧ isValidKeyName k = true ∧ identityOfKey k ∈ s.store.identities := by
  obtain ⟨key, h1, h2⟩ := hs.live hl
  obtain ⟨h3, h4⟩ := hs.cons.key k _ h2.bits
  exact ⟨key, h1, h2, h3, h4⟩

theorem certAdd_spec (hs : Coh P strict s) {k : Name} {r : Nat} (hl : LiveKey s k r) {c : Data} (hcont : keyOfCert c.name = k → c.content = dictGet k s.store.keys)
    (hst : strict = true → ∀ d, dictGet c.name s.store.certs = some d → d = c) :
    After (certAdd r c) s fun x s' => Coh P strict s' ∧ Ext s s' ∧ s'.tpm = s.tpm ∧
    match x with
    | .ok _ => checkCert c = .ok () ∧ keyOfCert c.name = k ∧ (∀ k', dictGet k' s'.store.keys = dictGet k' s.store.keys) ∧ s'.store.identities = s.store.identities ∧
        (∀ y, dictGet y s'.store.certs = if y = c.name then some c else dictGet y s.store.certs) ∧
        (∀ k', dictGet k' s'.store.defaultCerts = if k' = k ∧ dictGet k' s.store.defaultCerts = none then some c.name else dictGet k' s.store.defaultCerts) ∧
        (∀ n k', dictGet n s.store.defaultKeys = some k' → dictGet n s'.store.defaultKeys = some k') ∧
        (∀ n, s.store.defaultIdentity = some n → s'.store.defaultIdentity = some n)
    | .error _ => s' = s ∧ ¬ (checkCert c = .ok () ∧ keyOfCert c.name = k) := by
  obtain ⟨key, hk, hf, hv, hid⟩ := hs.stored hl
  unfold After certAdd
  rw [keyImpl_some hk]
  cases hc : key.name.equals (keyOfCert c.name) with
  | false =>
    refine ⟨hs, Ext.refl s, rfl, rfl, ?_⟩
    rintro ⟨_, h⟩
    rw [hf.name, equals_iff.2 h.symm] at hc
    nomatch hc
  | true =>
    rw [check_true _ rfl]
    have hkc : keyOfCert c.name = k := by rw [← equals_iff.1 hc]; exact hf.name
    cases hck : checkCert c with
    | error e => exact ⟨hs, Ext.refl s, rfl, rfl, fun h => (nomatch h.1)⟩
    | ok u =>
      cases u
      have hcont' := hcont hkc
      rw [hf.bits] at hcont'
      obtain ⟨st', e, g1, g2, g3, g4, g5, g6⟩ := Store.addCertificate_eq (st := s.store) (c := c) (bits := key.bits) (by rw [hkc]; exact hf.bits) hcont' (by rw [hkc]; exact hid) hck
      have hcons : Consistent st' := by
        have := Store.addCertificate_consistent hs.cons c (by rw [hkc]; exact hv)
        rw [e] at this
        exact this
      have hfacts : ∀ k', k' ≠ k → ∀ key', KeyFacts strict s.store k' key' → KeyFacts strict st' k' key' := by
        intro k' hne key' hf'
        refine hf'.store (g4 _) (fun y hy => ?_) ?_ fun y hy => (hs.cons.defaultCert _ y hy).2
        · rw [g5, if_neg]
          rintro rfl
          exact hne (hy.symm.trans hkc)
        · rw [g6, if_neg]
          rintro ⟨h, _⟩
          exact hne (h.trans hkc)
      obtain ⟨h1, h2⟩ := coh_setKey hs hl (f := fun key => { key with certs := dictSet c.name c key.certs }) (st := st') (fun key' _ hf' => by
          refine ⟨hf'.name, by rw [g4]; exact hf'.bits, fun y d hy => ?_, fun d hd => ?_⟩
          · have hy' : dictGet y (dictSet c.name c key'.certs) = some d := hy
            rw [get_set] at hy'
            rw [g5]
            split at hy'
            · rename_i ee
              rw [if_pos ee, ee]
              exact ⟨hy', hkc⟩
            · rename_i ee
              rw [if_neg ee]
              exact hf'.certs y d hy'
          · obtain ⟨q1, q2, q3⟩ := hf'.defaultCert d hd
            refine ⟨?_, q2, fun hh => ?_⟩
            · rw [g6, if_neg]
              · exact q1
              · rintro ⟨_, h⟩
                rw [q1] at h
                nomatch h
            · rw [g5]
              split
              · rename_i ee
                rw [hst hh d (by rw [← ee]; exact q3 hh)]
              · exact q3 hh)
        (fun k' key' hne hf' => hfacts k' hne key' hf') hcons g1 g2 (fun _ => g3) (fun k' b hb => by rw [← g4]; exact hb) (fun y d hy => by
          rw [g4]
          rw [g5] at hy
          split at hy
          · rename_i ee
            cases hy
            rw [ee, hkc, hf.bits]
            exact hcont'.symm
          · exact hs.content y d hy)
      have e2 : onStore (Store.addCertificate c) (setKey r (fun key => { key with certs := dictSet c.name c key.certs }) s).2 =
          (.ok (), { s with store := st', keys := s.keys.modify r fun key => { key with certs := dictSet c.name c key.certs } }) := onStore_eq (s := (setKey r _ s).2) e
      have e3 : (lift (.ok ()) >>= fun _ => setKey r (fun key => { key with certs := dictSet c.name c key.certs }) >>= fun _ => onStore (Store.addCertificate c) : K Unit) s =
          onStore (Store.addCertificate c) (setKey r (fun key => { key with certs := dictSet c.name c key.certs }) s).2 := rfl
      rw [e3, e2]
      refine ⟨h1, h2, rfl, rfl, hkc, g4, g1, g5, fun k' => ?_, g3, g2⟩
      rw [g6 k', hkc]

theorem keyRemoveCertificate_spec (hs : Coh P strict s) {k : Name} {r : Nat} (hl : LiveKey s k r) (c : Name) :
    After (keyRemoveCertificate r c) s fun x s' => Coh P strict s' ∧ Ext s s' ∧ s'.tpm = s.tpm ∧
    match x with
    | .ok _ => keyOfCert c = k ∧ s'.store = (Store.removeCertificate c s.store).2 ∧ dictGet c s'.store.certs = none
    | .error e => e = .py .value ∧ s'.store = s.store ∧ ¬ (isCertName c = true ∧ keyOfCert c = k) := by
  unfold keyRemoveCertificate
  unfold After
  rw [setKey_bind]
  have hc1 : Coh P strict (setKey r (fun key => match key.defaultCert with
      | some d => if d.name.equals c then { key with defaultCert := none } else key
      | none => key) s).2 ∧ Quiet s (setKey r (fun key => match key.defaultCert with
      | some d => if d.name.equals c then { key with defaultCert := none } else key
      | none => key) s).2 := coh_cache hs hl (fun key _ hf => by
    split
    · split
      · exact ⟨hf.name, hf.bits, hf.certs, fun _ h => (nomatch h)⟩
      · exact hf
    · exact hf)
  have hno : ∀ key, (setKey r (fun key => match key.defaultCert with
      | some d => if d.name.equals c then { key with defaultCert := none } else key
      | none => key) s).2.keys[r]? = some key → ∀ d, key.defaultCert = some d → d.name ≠ c := by
    intro key hk d hd
    obtain ⟨key0, h0, _⟩ := hs.live hl
    have hk' : (s.keys.modify r (fun key => match key.defaultCert with
      | some d => if d.name.equals c then { key with defaultCert := none } else key
      | none => key))[r]? = some key := hk
    rw [get_modify, if_pos rfl, h0] at hk'
    have hk2 := Option.some.inj hk'
    dsimp only at hk2
    split at hk2
    · rename_i d0 hd0
      split at hk2
      · subst hk2; nomatch hd
      · rename_i hne
        subst hk2
        rw [hd0] at hd
        cases hd
        exact fun hh => hne (equals_iff.2 hh)
    · rename_i hd0
      subst hk2
      rw [hd0] at hd
      nomatch hd
  generalize (setKey r (fun key => match key.defaultCert with
      | some d => if d.name.equals c then { key with defaultCert := none } else key
      | none => key) s).2 = s1 at hc1 hno
  obtain ⟨h1, h2⟩ := hc1
  have hl1 := h2.ext.key k r hl
  obtain ⟨key, hk, hf, hv, hid⟩ := h1.stored hl1
  unfold certRemove
  rw [keyImpl_some hk]
  cases hc : (isCertName c && (keyOfCert c).equals key.name) with
  | false =>
    refine ⟨h1, h2.ext, h2.tpm, rfl, h2.store, ?_⟩
    rintro ⟨g1, g2⟩
    rw [g1, hf.name, equals_iff.2 g2] at hc
    nomatch hc
  | true =>
    rw [check_true _ rfl]
    obtain ⟨hcn, he⟩ := Bool.and_eq_true _ _ ▸ hc
    have hkc : keyOfCert c = k := (equals_iff.1 he).trans hf.name
    have hcons := Store.removeCertificate_consistent h1.cons hcn
    rw [setKey_bind]
    have e := Store.removeCertificate_eq s1.store hcn
    have hstore := congrArg Prod.snd e
    dsimp only at hstore
    rw [hkc] at hstore
    have g5 : ∀ y, dictGet y (Store.removeCertificate c s1.store).2.certs = if y = c then none else dictGet y s1.store.certs := by
      intro y; rw [hstore]; exact get_del _ _ _
    have g6 : ∀ k', dictGet k' (Store.removeCertificate c s1.store).2.defaultCerts =
        if k' = k ∧ dictGet k s1.store.defaultCerts = some c then none else dictGet k' s1.store.defaultCerts := by
      intro k'; rw [hstore]
      dsimp only
      split
      · rename_i ee
        rw [get_del]
        by_cases hk' : k' = k
        · rw [if_pos hk', if_pos ⟨hk', ee⟩]
        · rw [if_neg hk', if_neg (fun h => hk' h.1)]
      · rename_i ee
        rw [if_neg (fun h => ee h.2)]
    have g4 : (Store.removeCertificate c s1.store).2.keys = s1.store.keys := by rw [hstore]
    obtain ⟨q1, q2⟩ := coh_setKey h1 hl1 (f := fun key => { key with certs := dictDel c key.certs }) (st := (Store.removeCertificate c s1.store).2) (fun key' hk' hf' => by
        rw [hk] at hk'
        cases hk'
        refine ⟨hf'.name, by rw [g4]; exact hf'.bits, fun y d hy => ?_, fun d hd => ?_⟩
        · have hy' : dictGet y (dictDel c key.certs) = some d := hy
          rw [get_del] at hy'
          rw [g5]
          split at hy'
          · nomatch hy'
          · rename_i ee
            rw [if_neg ee]
            exact hf'.certs y d hy'
        · obtain ⟨q1, q2, q3⟩ := hf'.defaultCert d hd
          have hne := hno key hk d hd
          refine ⟨?_, q2, fun hh => ?_⟩
          · rw [g6, if_neg]
            · exact q1
            · rintro ⟨_, h⟩
              rw [q1] at h
              exact hne (Option.some.inj h)
          · rw [g5, if_neg hne]
            exact q3 hh)
      (fun k' key' hne hf' => hf'.store (by rw [g4]) (fun y hy => by
          rw [g5, if_neg]
          rintro rfl
          exact hne (hy.symm.trans hkc)) (by rw [g6, if_neg (fun h => hne h.1)]) fun y hy => (h1.cons.defaultCert _ y hy).2)
      hcons (by rw [hstore]) (fun n hn => by rw [hstore]; exact hn) (fun _ n k' hn => by rw [hstore]; exact hn) (fun k' b hb => by rw [← g4]; exact hb) (fun y d hy => by
        rw [g4]
        rw [g5] at hy
        split at hy
        · nomatch hy
        · exact h1.content y d hy)
    have e2 : onStore (Store.removeCertificate c) (setKey r (fun key => { key with certs := dictDel c key.certs }) s1).2 =
        (.ok (), { s1 with store := (Store.removeCertificate c s1.store).2, keys := s1.keys.modify r fun key => { key with certs := dictDel c key.certs } }) :=
      onStore_eq (s := (setKey r _ s1).2) (show Store.removeCertificate c s1.store = (.ok (), (Store.removeCertificate c s1.store).2) by rw [e])
    rw [e2]
    refine ⟨q1, h2.ext.trans q2, h2.tpm, hkc, by rw [h2.store], ?_⟩
    dsimp only
    rw [g5, if_pos rfl]

theorem keySetDefaultCertificate_spec (hs : Coh P strict s) {k : Name} {r : Nat} (hl : LiveKey s k r) (c : Name) :
    After (keySetDefaultCertificate r c) s fun x s' => Coh P strict s' ∧ Ext s s' ∧ s'.tpm = s.tpm ∧
    match x with
    | .ok d => dictGet c s.store.certs = some d ∧ keyOfCert c = k ∧ s'.store = { s.store with defaultCerts := dictSet k c s.store.defaultCerts }
    | .error e => s'.store = s.store ∧ (¬ (isCertName c = true ∧ keyOfCert c = k) ∧ e = .py .value ∨ e = .pib ∧ dictGet c s.store.certs = none) := by
  obtain ⟨key, hk, hf, hv, hid⟩ := hs.stored hl
  unfold After keySetDefaultCertificate
  rw [keyImpl_some hk, hf.name]
  obtain ⟨g1, g2, g3⟩ := certGet_spec hs hl c
  rw [bind_run]
  cases eq : certGet r c s with
  | mk x s1 =>
    rw [eq] at g1 g2 g3
    dsimp only at g1 g2
    cases x with
    | error e => exact ⟨g1, g2.ext, g2.tpm, g2.store, g3⟩
    | ok d =>
      dsimp only at g3 ⊢
      have hl1 := g2.ext.key k r hl
      obtain ⟨hd, hkc⟩ := g3
      have hd1 : dictGet c s1.store.certs = some d := by rw [g2.store]; exact hd
      have e : Store.setDefaultCertificateOfKey k c s1.store = (.ok (), { s1.store with defaultCerts := dictSet k c s1.store.defaultCerts }) := by
        unfold Store.setDefaultCertificateOfKey
        rw [get_bind, hd1]
        rfl
      have hcons := Store.setDefaultCert_consistent g1.cons hkc
      rw [e] at hcons
      have hdn := (g1.cons.cert c d hd1).2.2
      obtain ⟨q1, q2⟩ := coh_setKey g1 hl1 (f := fun key => { key with defaultCert := some d }) (st := { s1.store with defaultCerts := dictSet k c s1.store.defaultCerts }) (fun key' hk' hf' => by
          refine ⟨hf'.name, hf'.bits, hf'.certs, fun x hx => ?_⟩
          cases (show some d = some x from hx)
          refine ⟨?_, ?_, fun _ => by rw [hdn]; exact hd1⟩
          · dsimp only
            rw [get_set, if_pos rfl, hdn]
          · have := g1.content c d hd1
            rw [hkc, hf'.bits] at this
            exact this.symm)
        (fun k' key' hne hf' => hf'.store rfl (fun _ _ => rfl) (by dsimp only; rw [get_set, if_neg hne]) fun y hy => (g1.cons.defaultCert _ y hy).2)
        hcons rfl (fun _ h => h) (fun _ _ _ h => h) (fun _ _ h => h) g1.content
      have e2 : onStore (Store.setDefaultCertificateOfKey k c) (setKey r (fun key => { key with defaultCert := some d }) s1).2 =
          (.ok (), { s1 with store := { s1.store with defaultCerts := dictSet k c s1.store.defaultCerts }, keys := s1.keys.modify r fun key => { key with defaultCert := some d } }) :=
        onStore_eq (s := (setKey r _ s1).2) e
      rw [setKey_bind, bind_ok e2]
      refine ⟨q1, g2.ext.trans q2, g2.tpm, hd, hkc, ?_⟩
      show ({ s1.store with defaultCerts := dictSet k c s1.store.defaultCerts } : Store) = _
      rw [g2.store]

/-! ### Keys -/

theorem Coh.unstored (hs : Coh P strict s) {k : Name} (h : dictGet k s.tpm = none) : dictGet k s.store.keys = none := by
  cases hb : dictGet k s.store.keys with
  | none => rfl
  | some b =>
    obtain ⟨p, hp, _⟩ := hs.tpm k b hb
    rw [h] at hp
    nomatch hp

theorem keyAdd_spec (S : Sound P) (hs : Coh P strict s) {n : Name} {h : Nat} (hl : LiveId s n h) {k : Name} (hv : isValidKeyName k = true) (hk : identityOfKey k = n)
    (hno : dictGet k s.store.keys = none) {p : Nat} (hp : dictGet k s.tpm = some p) :
    ∃ r s', keyAdd P h (P.publicKey p) k s = (.ok r, s') ∧ Coh P strict s' ∧ Ext s s' ∧ s'.tpm = s.tpm ∧ LiveKey s' k r ∧
      s'.store = (Store.addKey n k (P.publicKey p) s.store).2 := by
  subst hk
  obtain ⟨i, hi, hin, hmem⟩ := hs.id _ h hl
  have ht : (P.keyType (P.publicKey p)).isSome = true := by rcases S.type p with h | h <;> rw [h] <;> rfl
  have hnok : dictGet k i.keys = none := by
    cases hd : dictGet k i.keys with
    | none => rfl
    | some r =>
      obtain ⟨_, key, _, q⟩ := hs.key _ h i k r hl hi hd
      have hb := q.bits
      rw [hno] at hb
      nomatch hb
  have h1 := coh_addKey hs hv hmem hno hp
  obtain ⟨h2, h3⟩ := coh_newKey h1 hl hi hnok (bits := P.publicKey p) (by
    show dictGet k (dictSet k _ s.store.keys) = _
    rw [get_set, if_pos rfl])
  obtain ⟨l, e⟩ := certsOf_run hs k
  have e1 : makeKey P k (P.publicKey p) s = (.ok s.keys.length, { s with
      store := (Store.addKey (identityOfKey k) k (P.publicKey p) s.store).2
      keys := s.keys ++ [{ name := k, bits := P.publicKey p }] }) := by
    unfold makeKey
    rw [check_true _ hv, bind_ok e, check_true _ ht]
    rfl
  have hnew : (s.ids.modify h fun i => { i with keys := dictSet k s.keys.length i.keys })[h]? = some { i with keys := dictSet k s.keys.length i.keys } := by
    rw [get_modify, if_pos rfl, hi]; rfl
  have hg : dictGet k (dictSet k s.keys.length i.keys) = some s.keys.length := by rw [get_set, if_pos rfl]
  have hcheck : (isValidKeyName k && i.name.equals (identityOfKey k)) = true := by rw [hv, hin, equals_iff.2 rfl]; rfl
  refine ⟨s.keys.length, { s with
      store := (Store.addKey (identityOfKey k) k (P.publicKey p) s.store).2
      keys := s.keys ++ [{ name := k, bits := P.publicKey p }]
      ids := s.ids.modify h fun i => { i with keys := dictSet k s.keys.length i.keys } }, ?_, h2, ⟨h3.ext.id, h3.ext.key⟩, rfl, ⟨_, h, _, hl, hnew, hg⟩, rfl⟩
  unfold keyAdd
  rw [idImpl_some hi, check_true _ hcheck, bind_ok e1, setId_bind]
  show keyGet P h k { s with
      store := (Store.addKey (identityOfKey k) k (P.publicKey p) s.store).2
      keys := s.keys ++ [{ name := k, bits := P.publicKey p }]
      ids := s.ids.modify h fun i => { i with keys := dictSet k s.keys.length i.keys } } = _
  unfold keyGet
  rw [idImpl_some hnew, check_true _ hcheck]
  dsimp only
  rw [hg]
  rfl

theorem keyAdd_invalid {n : Name} {h : Nat} (hs : Coh P strict s) (hl : LiveId s n h) {k : Name} (hk : ¬ (isValidKeyName k = true ∧ identityOfKey k = n)) (bits : Bytes) :
    keyAdd P h bits k s = (.error (.py .value), s) := by
  obtain ⟨i, hi, hin, hmem⟩ := hs.id _ h hl
  unfold keyAdd
  rw [idImpl_some hi, check_false]
  cases hc : (isValidKeyName k && i.name.equals (identityOfKey k)) with
  | false => rfl
  | true =>
    obtain ⟨h1, h2⟩ := Bool.and_eq_true _ _ ▸ hc
    exact absurd ⟨h1, (equals_iff.1 h2).symm.trans hin⟩ hk

theorem tpmCreate_spec (hs : Coh P strict s) (n : Name) (g : Gen) (hg : FreshId P s n g) :
    (∃ e, tpmCreate P n g s = (.error e, s)) ∨ ∃ id s', tpmCreate P n g s = (.ok (constructKeyName n id), s') ∧ Coh P strict s' ∧ Ext s s' ∧ s'.store = s.store ∧
      dictGet (constructKeyName n id) s.tpm = none ∧ s'.tpm = dictSet (constructKeyName n id) g.private_ s.tpm ∧
      (∀ c, g.id = .user c → id = c) := by
  have hfin : ∀ (x : KeyId) id, dictGet (constructKeyName n id) s.tpm = none → (∀ c, x = .user c → id = c) → ∃ id' s', (do
        modify fun s => { s with tpm := dictSet (constructKeyName n id) g.private_ s.tpm, handles := dictSet (constructKeyName n id) g.private_ s.handles }
        return constructKeyName n id : K Name) s = (.ok (constructKeyName n id'), s') ∧ Coh P strict s' ∧ Ext s s' ∧ s'.store = s.store ∧
      dictGet (constructKeyName n id') s.tpm = none ∧ s'.tpm = dictSet (constructKeyName n id') g.private_ s.tpm ∧ (∀ c, x = .user c → id' = c) := by
    intro x id hid hu
    exact ⟨id, _, rfl, coh_tpmAdd hs (hs.unstored hid) g.private_, ⟨fun _ _ h => h, fun _ _ h => h⟩, rfl, hid, rfl, hu⟩
  unfold tpmCreate
  split
  · exact Or.inl ⟨_, rfl⟩
  · rw [get_bind]
    dsimp only
    cases hid : g.id with
    | user c =>
      dsimp only
      cases hu : (dictGet (constructKeyName n c) s.tpm).isNone with
      | false => exact Or.inl ⟨_, rfl⟩
      | true => exact Or.inr (by rw [check_true _ rfl]; exact hfin _ c (Option.isNone_iff_eq_none.1 hu) (fun c' h => by cases h; rfl))
    | sha256 => exact Or.inr (hfin _ _ (hg hid) (fun c' h => nomatch h))
    | random ids =>
      dsimp only
      cases hf : ids.find? (fun id => (dictGet (constructKeyName n id) s.tpm).isNone) with
      | none => exact Or.inl ⟨_, rfl⟩
      | some id =>
        rw [orRaise_some _ rfl]
        have := List.find?_some hf
        exact Or.inr (hfin _ id (Option.isNone_iff_eq_none.1 this) (fun c' h => nomatch h))

theorem idSetDefaultKey_spec (S : Sound P) (hs : Coh P strict s) {n : Name} {h : Nat} (hl : LiveId s n h) (k : Name) :
    After (idSetDefaultKey P h k) s fun x s' => Coh P strict s' ∧ Ext s s' ∧ s'.tpm = s.tpm ∧
    match x with
    | .ok r => LiveKey s' k r ∧ identityOfKey k = n ∧ s'.store = { s.store with defaultKeys := dictSet n k s.store.defaultKeys }
    | .error _ => s'.store = s.store ∧ ¬ (identityOfKey k = n ∧ ∃ b, dictGet k s.store.keys = some b) := by
  obtain ⟨i, hi, hin, hmem⟩ := hs.id _ h hl
  unfold After idSetDefaultKey
  rw [idImpl_some hi, hin, bind_run]
  obtain ⟨g1, g2, g3⟩ := keyGet_spec S hs hl k
  cases eq : keyGet P h k s with
  | mk x s1 =>
    rw [eq] at g1 g2 g3
    dsimp only at g1 g2
    cases x with
    | error e =>
      refine ⟨g1, g2.ext, g2.tpm, g2.store, ?_⟩
      rintro ⟨q1, b, q2⟩
      rcases g3 with ⟨g3, _⟩ | ⟨_, g3⟩
      · exact g3 ⟨(hs.cons.key k b q2).1, q1⟩
      · rw [q2] at g3; nomatch g3
    | ok r =>
      obtain ⟨q1, q2, q3, ⟨b, q4⟩, i', q5, q6, q7, q8⟩ := g3
      have hl' := g2.ext.id n h hl
      have hb : dictGet k s1.store.keys = some b := by rw [g2.store]; exact q4
      have e : Store.setDefaultKeyOfIdentity n k s1.store = (.ok (), { s1.store with defaultKeys := dictSet n k s1.store.defaultKeys }) := by
        unfold Store.setDefaultKeyOfIdentity
        rw [get_bind, hb]
        rfl
      have hcons := Store.setDefaultKey_consistent g1.cons q3
      rw [e] at hcons
      obtain ⟨c1, c2⟩ := coh_setDefaultKey g1 hl' q5 (o := some r) (st := { s1.store with defaultKeys := dictSet n k s1.store.defaultKeys })
        (fun r' hr => ⟨k, by cases hr; exact q6, fun _ => by dsimp only; rw [get_set, if_pos rfl]⟩) rfl hcons (fun m hm => by dsimp only; rw [get_set, if_neg hm])
      have e2 : onStore (Store.setDefaultKeyOfIdentity n k) (setId h (fun i => { i with defaultKey := some r }) s1).2 =
          (.ok (), { s1 with store := { s1.store with defaultKeys := dictSet n k s1.store.defaultKeys }, ids := s1.ids.modify h fun i => { i with defaultKey := some r } }) :=
        onStore_eq (s := (setId h _ s1).2) e
      dsimp only
      rw [setId_bind, bind_ok e2]
      refine ⟨c1, g2.ext.trans c2, g2.tpm, c2.key _ _ q1, q3, ?_⟩
      show ({ s1.store with defaultKeys := dictSet n k s1.store.defaultKeys } : Store) = _
      rw [g2.store]

/-- `deleteKey`. -/
theorem deleteKey_spec (hs : Coh P strict s) {n : Name} {h : Nat} (hl : LiveId s n h) {k : Name} {r : Nat} (hk : LiveKey s k r)
    (hst : strict = true → ∀ k', dictGet (identityOfKey k) s.store.defaultKeys = some k' → k' = k) :
    After (deleteKey h r) s fun x s' => Coh P strict s' ∧
    match x with
    | .ok _ => identityOfKey k = n ∧ s'.store = (Store.removeKey k s.store).2 ∧ s'.tpm = dictDel k s.tpm ∧
        (∀ m h', LiveId s m h' → LiveId s' m h') ∧ ∀ k' r', k' ≠ k → LiveKey s k' r' → LiveKey s' k' r'
    | .error e => identityOfKey k ≠ n ∧ e = .py .value ∧ s' = s := by
  obtain ⟨i, hi, hin, hmem⟩ := hs.id _ h hl
  obtain ⟨key, hkey, hf, hv, hid⟩ := hs.stored hk
  unfold After deleteKey
  rw [idImpl_some hi, keyImpl_some hkey, hf.name, hin]
  cases hc : n.equals (identityOfKey k) with
  | false =>
    refine ⟨hs, ?_, rfl, rfl⟩
    rintro rfl
    rw [equals_iff.2 rfl] at hc
    nomatch hc
  | true =>
    rw [check_true _ rfl]
    have hidk : identityOfKey k = n := (equals_iff.1 hc).symm
    subst hidk
    have hik : dictGet k i.keys = some r := (hs.liveKey_iff hl hi).1 hk
    -- the default key object is forgotten if it is this key
    have hfirst : ∃ s1 i1, Coh P strict s1 ∧ Quiet s s1 ∧ s1.ids[h]? = some i1 ∧ i1.name = identityOfKey k ∧ (∀ r, i1.defaultKey = some r → dictGet k i1.keys ≠ some r) ∧
        (idRemoveKey h k s = keyRemove h k s1) := by
      unfold idRemoveKey
      rw [idImpl_some hi]
      cases hd : i.defaultKey with
      | none => exact ⟨s, i, hs, Quiet.refl s, hi, hin, fun r hr => (by rw [hd] at hr; nomatch hr), rfl⟩
      | some r0 =>
        obtain ⟨k0, q1, q2⟩ := hs.defaultKey _ h i r0 hl hi hd
        obtain ⟨q3, key0, q4, q5⟩ := hs.key _ h i k0 r0 hl hi q1
        dsimp only
        rw [keyImpl_some q4, q5.name]
        by_cases hk0 : k0 = k
        · rw [if_pos (equals_iff.2 hk0)]
          obtain ⟨c1, c2⟩ := coh_setDefaultKey hs hl hi (o := none) (st := s.store) (fun _ h => nomatch h) rfl hs.cons (fun _ _ => rfl)
          refine ⟨_, { i with defaultKey := none }, c1, ⟨c2, rfl, rfl⟩, ?_, hin, fun _ h => (nomatch h), rfl⟩
          show (s.ids.modify h _)[h]? = _
          rw [get_modify, if_pos rfl, hi]; rfl
        · rw [if_neg (fun h => hk0 (equals_iff.1 h))]
          refine ⟨s, i, hs, Quiet.refl s, hi, hin, fun r' hr' hkr => ?_, rfl⟩
          rw [hd] at hr'
          cases hr'
          obtain ⟨_, key1, q6, q7⟩ := hs.key _ h i k r0 hl hi hkr
          rw [q4] at q6
          cases q6
          exact hk0 (q5.name.symm.trans q7.name)
    obtain ⟨s1, i1, hc1, hq, hi1, hin1, hd1, e⟩ := hfirst
    have hl1 := hq.ext.id _ _ hl
    have hc2 := coh_removeKey hc1 hv hl1 hi1 hd1 (by rw [hq.store]; exact hst)
    obtain ⟨st', er, f0, f1, f2, f3, f4, f5, f6⟩ := Store.removeKey_spec (Store.named hc1.cons) hv
    have e2 : keyRemove h k s1 = (.ok (), { s1 with store := (Store.removeKey k s1.store).2, ids := s1.ids.modify h fun i => { i with keys := dictDel k i.keys } }) := by
      unfold keyRemove
      rw [idImpl_some hi1, check_true _ (by rw [hv, hin1, equals_iff.2 rfl]; rfl), setId_bind, onStore_eq (s := (setId h _ s1).2) (st := (Store.removeKey k s1.store).2) (r := .ok ())]
      · rfl
      · show Store.removeKey k s1.store = _
        rw [er]
    have hgone : dictGet k (Store.removeKey k s1.store).2.keys = none := by rw [er]; dsimp only; rw [f4, if_pos rfl]
    have hc3 := coh_tpmDelete hc2 (k := k) hgone
    rw [bind_ok (e.trans e2)]
    refine ⟨hc3, rfl, ?_, ?_, fun m h' hm => hq.ext.id m h' hm, ?_⟩
    · show (Store.removeKey k s1.store).2 = _
      rw [hq.store]
    · show dictDel k s1.tpm = _
      rw [hq.tpm]
    · rintro k' r' hne hk'
      obtain ⟨m, h', i', g1, g2, g3⟩ := hq.ext.key k' r' hk'
      refine ⟨m, h', (if h = h' then { i' with keys := dictDel k i'.keys } else i'), g1, ?_, ?_⟩
      · show (s1.ids.modify h _)[h']? = _
        rw [get_modify]
        split
        · rw [g2]; rfl
        · exact g2
      · split
        · show dictGet k' (dictDel k i'.keys) = _
          rw [get_del, if_neg hne]
          exact g3
        · exact g3

/-! ### Identities -/

theorem forEach_tpmDelete : ∀ (l : List Name) (s : KC), forEach tpmDelete l s =
    (.ok (), { s with handles := l.foldl (fun d k => dictDel k d) s.handles, tpm := l.foldl (fun d k => dictDel k d) s.tpm })
  | [], s => rfl
  | k :: l, s => by
    unfold forEach
    show forEach tpmDelete l { s with handles := dictDel k s.handles, tpm := dictDel k s.tpm } = _
    rw [forEach_tpmDelete l]
    rfl

theorem coh_tpmDeletes : ∀ (l : List Name) (s : KC), Coh P strict s → (∀ k ∈ l, dictGet k s.store.keys = none) →
    Coh P strict { s with handles := l.foldl (fun d k => dictDel k d) s.handles, tpm := l.foldl (fun d k => dictDel k d) s.tpm }
  | [], s, hs, _ => hs
  | k :: l, s, hs, h => coh_tpmDeletes l _ (coh_tpmDelete hs (h k List.mem_cons_self)) fun k' hk' => h k' (List.mem_cons_of_mem _ hk')

theorem get_dels {ν : Type} (k : Name) : ∀ (l : List Name) (d : List (Name × ν)), dictGet k (l.foldl (fun d k => dictDel k d) d) = if k ∈ l then none else dictGet k d
  | [], d => by simp
  | x :: l, d => by
    rw [List.foldl_cons, get_dels k l, get_del]
    by_cases h : k = x <;> simp [h]

/-- `deleteIdentity`. -/
theorem deleteIdentity_spec (hs : Coh P strict s) {n : Name} {h : Nat} (hl : LiveId s n h) :
    ∃ s', deleteIdentity h s = (.ok (), s') ∧ Coh P strict s' ∧ s'.store = (Store.removeIdentity n s.store).2 ∧
      (∀ k, (∃ r, identityOfKey k = n ∧ LiveKey s k r) → dictGet k s'.tpm = none) ∧
      (∀ k, (¬ ∃ r, identityOfKey k = n ∧ LiveKey s k r) → dictGet k s'.tpm = dictGet k s.tpm) ∧
      (∀ m h', m ≠ n → LiveId s m h' → LiveId s' m h') ∧ (∀ k r, identityOfKey k ≠ n → LiveKey s k r → LiveKey s' k r) := by
  obtain ⟨i, hi, hin, hmem⟩ := hs.id _ h hl
  obtain ⟨st', er, f0, f1, f2, f3, f4, f5, f6⟩ := Store.removeIdentity_spec hs.cons n
  let o : Option Nat := match s.defaultIdentity with
    | some d => if d = h then none else some d
    | none => none
  have ho : ∀ d, o = some d → s.defaultIdentity = some d ∧ ¬ LiveId s n d := by
    intro d hd
    show _ ∧ _
    have hd' : (match s.defaultIdentity with | some d => if d = h then none else some d | none => none) = some d := hd
    cases hdd : s.defaultIdentity with
    | none => rw [hdd] at hd'; nomatch hd'
    | some x =>
      rw [hdd] at hd'
      dsimp only at hd'
      split at hd'
      · nomatch hd'
      · rename_i hne
        cases hd'
        refine ⟨rfl, fun hx => hne ?_⟩
        exact Option.some.inj (hx.symm.trans hl)
  have hc1 := coh_removeIdentity hs n o ho
  have hkeys : ∀ k ∈ i.keys.map (·.1), dictGet k (Store.removeIdentity n s.store).2.keys = none := by
    intro k hk
    obtain ⟨r, hr⟩ := mem_dict.1 hk
    obtain ⟨q1, _⟩ := hs.key n h i k r hl hi hr
    rw [er]
    dsimp only
    rw [f4, if_pos q1]
  have hc2 := coh_tpmDeletes (i.keys.map (·.1)) _ hc1 hkeys
  refine ⟨_, ?_, hc2, rfl, ?_, ?_, ?_, ?_⟩
  · unfold deleteIdentity
    rw [idImpl_some hi, bind_ok (forEach_tpmDelete _ _), hin]
    unfold removeIdentity
    rw [get_bind]
    dsimp only
    have hfin : ∀ s0 : KC, s0.store = s.store → (do
        modify fun s => { s with identityNames := s.identityNames.filter (· ≠ n), identities := dictDel n s.identities }
        onStore (Store.removeIdentity n) : K Unit) s0 =
        (.ok (), { s0 with store := (Store.removeIdentity n s.store).2, identityNames := s0.identityNames.filter (· ≠ n), identities := dictDel n s0.identities }) := by
      intro s0 h0
      rw [modify_bind, onStore_eq (r := .ok ()) (st := (Store.removeIdentity n s.store).2)]
      show Store.removeIdentity n s0.store = _
      rw [h0, er]
    cases hd : s.defaultIdentity with
    | none =>
      dsimp only
      have ho' : o = none := by show (match s.defaultIdentity with | some d => if d = h then none else some d | none => none) = none; rw [hd]
      rw [ho']
      exact hfin _ (by rfl)
    | some d =>
      obtain ⟨m, q1, q2⟩ := hs.defaultIdentity d hd
      obtain ⟨id, g1, g2, g3⟩ := hs.id m d q1
      dsimp only
      rw [idImpl_some (s := { s with defaultIdentity := some d, handles := (i.keys.map (·.1)).foldl (fun d k => dictDel k d) s.handles, tpm := (i.keys.map (·.1)).foldl (fun d k => dictDel k d) s.tpm }) g1, g2]
      by_cases hm : m = n
      · subst hm
        have : d = h := Option.some.inj (q1.symm.trans hl)
        have ho' : o = none := by show (match s.defaultIdentity with | some d => if d = h then none else some d | none => none) = none; rw [hd]; dsimp only; rw [if_pos this]
        rw [if_pos (equals_iff.2 rfl), ho', modify_bind]
        exact hfin _ (by rfl)
      · have hne : d ≠ h := by
          rintro rfl
          rw [hi] at g1
          cases g1
          exact hm (g2.symm.trans hin)
        have ho' : o = some d := by show (match s.defaultIdentity with | some d => if d = h then none else some d | none => none) = some d; rw [hd]; dsimp only; rw [if_neg hne]
        rw [if_neg (fun hh => hm (equals_iff.1 hh)), ho']
        exact hfin _ (by rfl)
  · rintro k ⟨r, q1, q2⟩
    show dictGet k ((i.keys.map (·.1)).foldl (fun d k => dictDel k d) s.tpm) = _
    subst q1
    rw [get_dels, if_pos (mem_dict.2 ⟨r, (hs.liveKey_iff hl hi).1 q2⟩)]
  · intro k hk
    show dictGet k ((i.keys.map (·.1)).foldl (fun d k => dictDel k d) s.tpm) = _
    rw [get_dels, if_neg]
    intro hm
    obtain ⟨r, hr⟩ := mem_dict.1 hm
    exact hk ⟨r, (hs.key n h i k r hl hi hr).1, n, h, i, hl, hi, hr⟩
  · intro m h' hm hlm
    show dictGet m (dictDel n s.identities) = _
    rw [get_del, if_neg hm]
    exact hlm
  · rintro k r hk ⟨m, h', i', g1, g2, g3⟩
    refine ⟨m, h', i', ?_, g2, g3⟩
    show dictGet m (dictDel n s.identities) = _
    rw [get_del, if_neg]
    · exact g1
    · rintro rfl
      exact hk (hs.key m h' i' k r g1 g2 g3).1

theorem pibSetDefaultIdentity_spec (hs : Coh P strict s) {n : Name} {h : Nat} (hl : LiveId s n h) :
    ∃ s', pibSetDefaultIdentity n s = (.ok (), s') ∧ Coh P strict s' ∧ Ext s s' ∧ s'.tpm = s.tpm ∧ s'.store = (Store.setDefaultIdentity n s.store).2 := by
  obtain ⟨_, _, _, hmem⟩ := hs.id _ h hl
  obtain ⟨g1, g2, g3, g4, h', g5, g6⟩ := addIdentity_spec hs n
  rw [if_pos hmem] at g4
  have hc := coh_setDefaultIdentity g1 g6
  refine ⟨_, ?_, hc, ⟨fun m x hm => g2.id m x hm, fun k r hk => g2.key k r hk⟩, g3, by rw [g4]⟩
  unfold pibSetDefaultIdentity
  rw [bind_ok (show addIdentity n s = (.ok h', (addIdentity n s).2) from Prod.ext g5 rfl)]
  rfl

end KeyChain
end PyNDN
