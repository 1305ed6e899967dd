import Verif.Props.KeyEffects
/-
C66: what is deleted is gone, and nothing else; and what is exported can be imported.
-/
namespace PyNDN
namespace KeyChain
open PSync (dictGet dictSet dictDel dictGet_none dictGet_some)
open Spec
open Spec.KeyChain

variable {P : Params} {strict : Bool} {s : KC}

theorem keyIn_congr {st st' : Store} {n k : Name} (h1 : n ∈ st'.identities ↔ n ∈ st.identities) (h2 : identityOfKey k = n → dictGet k st'.keys = dictGet k st.keys) :
    keyIn st' n k = keyIn st n k := by
  unfold keyIn
  by_cases hn : n ∈ st.identities
  · rw [if_neg (not_not_intro hn), if_neg (not_not_intro (h1.2 hn))]
    split
    · rfl
    · next hh => rw [h2 (Decidable.of_not_not hh).2]
  · rw [if_pos hn, if_pos (fun x => hn (h1.1 x))]

/-- Two PIBs that agree on what a question is about give the same answer. -/
theorem answer_congr {st st' : Store} (hc : Consistent st) (hc' : Consistent st') (q : Query)
    (hid : ∀ n, (q = .identity n ∨ q = .defaultKey n ∨ (∃ k, q = .key n k) ∨ (∃ k c, q = .cert n k c) ∨ ∃ k, q = .defaultCert n k) → (n ∈ st'.identities ↔ n ∈ st.identities))
    (hdi : q = .defaultIdentity → st'.defaultIdentity = st.defaultIdentity)
    (hk : ∀ n k, identityOfKey k = n → (q = .key n k ∨ (∃ c, q = .cert n k c) ∨ q = .defaultCert n k ∨ q = .defaultKey n ∧ dictGet n st.defaultKeys = some k) → dictGet k st'.keys = dictGet k st.keys)
    (hdk : ∀ n, q = .defaultKey n → dictGet n st'.defaultKeys = dictGet n st.defaultKeys)
    (hcert : ∀ n k c, identityOfKey k = n → keyOfCert c = k → (q = .cert n k c ∨ q = .defaultCert n k ∧ dictGet k st.defaultCerts = some c) → dictGet c st'.certs = dictGet c st.certs)
    (hdc : ∀ n k, identityOfKey k = n → q = .defaultCert n k → dictGet k st'.defaultCerts = dictGet k st.defaultCerts) :
    answer st' q = answer st q := by
  cases q with
  | identity n =>
    unfold answer
    dsimp only
    by_cases h : n ∈ st.identities
    · rw [if_pos h, if_pos ((hid n (Or.inl rfl)).2 h)]
    · rw [if_neg h, if_neg (fun x => h ((hid n (Or.inl rfl)).1 x))]
  | key n k =>
    unfold answer
    dsimp only
    rw [keyIn_congr (hid n (.inr (.inr (.inl ⟨k, rfl⟩)))) (fun e => hk n k e (.inl rfl))]
  | cert n k c =>
    unfold answer
    dsimp only
    rw [keyIn_congr (hid n (.inr (.inr (.inr (.inl ⟨k, c, rfl⟩))))) (fun e => hk n k e (.inr (.inl ⟨c, rfl⟩)))]
    cases hki : keyIn st n k with
    | error e => rfl
    | ok b =>
      show (if _ then _ else _) = (if _ then _ else _)
      split
      · rfl
      · next hh =>
        have hid' : identityOfKey k = n := by
          unfold keyIn at hki
          split at hki
          · nomatch hki
          · split at hki
            · nomatch hki
            · next h2 => exact (Decidable.of_not_not h2).2
        rw [hcert n k c hid' (Decidable.of_not_not hh).2 (.inl rfl)]
  | defaultIdentity =>
    unfold answer
    dsimp only
    rw [hdi rfl]
  | defaultKey n =>
    unfold answer
    dsimp only
    rw [hdk n rfl]
    by_cases h : n ∈ st.identities
    · rw [if_neg (not_not_intro h), if_neg (not_not_intro ((hid n (.inr (.inl rfl))).2 h))]
      cases hd : dictGet n st.defaultKeys with
      | none => rfl
      | some k =>
        dsimp only
        rw [keyIn_congr (hid n (.inr (.inl rfl))) (fun e => hk n k e (.inr (.inr (.inr ⟨rfl, hd⟩))))]
    · rw [if_pos h, if_pos (fun x => h ((hid n (.inr (.inl rfl))).1 x))]
  | defaultCert n k =>
    unfold answer
    dsimp only
    rw [keyIn_congr (hid n (.inr (.inr (.inr (.inr ⟨k, rfl⟩))))) (fun e => hk n k e (.inr (.inr (.inl rfl))))]
    cases hki : keyIn st n k with
    | error e => rfl
    | ok b =>
      have hid' : identityOfKey k = n := by
        unfold keyIn at hki
        split at hki
        · nomatch hki
        · split at hki
          · nomatch hki
          · next h2 => exact (Decidable.of_not_not h2).2
      show (match (dictGet k st'.defaultCerts).bind (dictGet · st'.certs) with | none => Except.error KErr.pib | some d => .ok (Answer.cert d)) = (match (dictGet k st.defaultCerts).bind (dictGet · st.certs) with | none => Except.error KErr.pib | some d => .ok (Answer.cert d))
      rw [hdc n k hid' rfl]
      cases hd : dictGet k st.defaultCerts with
      | none => rfl
      | some c =>
        show (match dictGet c st'.certs with | none => Except.error KErr.pib | some d => .ok (Answer.cert d)) = (match dictGet c st.certs with | none => Except.error KErr.pib | some d => .ok (Answer.cert d))
        rw [hcert n k c hid' (hc.defaultCert k c hd).2 (.inr ⟨rfl, hd⟩)]

theorem out_raised {α : Type} {m : K α} {f : α → Out} {o : Out} {e : KErr} (h : (m s).1 = .error e) : (K.out m f s).1 ≠ .ok o := by
  intro hh
  obtain ⟨a, ha, _⟩ := out_data hh
  rw [h] at ha
  nomatch ha

theorem out_state {α : Type} (m : K α) (f : α → Out) (s : KC) : (K.out m f s).2 = (m s).2 := by
  unfold K.out
  rw [bind_run]
  cases m s with
  | mk a b => cases a <;> rfl

/-- C66: `deleteKey` returns if the key is of the identity.  Then the private key, the key and its certificates are gone, and with them
the default key of the identity; nothing else is changed.  Otherwise nothing is changed. -/
theorem C66_delete_key (P : Params) (S : Sound P) (ops : List Op) (n k : Name) (i r : Nat) (h : Disciplined true P (ops ++ [.deleteKey i r]))
    (hl : LiveId (run P ops) n i) (hk : LiveKey (run P ops) k r) :
    let s := run P ops
    let s' := run P (ops ++ [.deleteKey i r])
    ((perform P (.deleteKey i r) s).1 = .ok .none ↔ identityOfKey k = n) ∧
    (identityOfKey k ≠ n → s' = s) ∧
    (identityOfKey k = n →
      dictGet k s'.tpm = none ∧ (ask P (.key n k) s').1 = .error .pib ∧ (∀ m, ∃ e, (ask P (.key m k) s').1 = .error e) ∧
      (∀ c, keyOfCert c = k → dictGet c s'.store.certs = none) ∧ (ask P (.defaultKey n) s').1 = .error .pib ∧
      (∀ k', k' ≠ k → dictGet k' s'.tpm = dictGet k' s.tpm) ∧
      ∀ q : Query, ¬ q.aboutKey k → (ask P q s').1 = (ask P q s).1) := by
  obtain ⟨hd, _, k0, hk0, hp⟩ := disciplined_snoc h
  have hs := coh_run S ops hd
  have hkk : k0 = k := by
    obtain ⟨x, hx, hf⟩ := hs.live hk
    obtain ⟨y, hy, hg⟩ := hs.live hk0
    rw [hx] at hy
    cases hy
    rw [← hf.name, hg.name]
  subst hkk
  have hspec := deleteKey_spec hs hl hk hp
  unfold After at hspec
  obtain ⟨h1, h2⟩ := hspec
  have hrun : run P (ops ++ [.deleteKey i r]) = (deleteKey i r (run P ops)).2 := by rw [run_snoc]; exact out_state _ _ _
  obtain ⟨_, _, _, hv, _⟩ := hs.stored hk
  have hmem : n ∈ (run P ops).store.identities := by obtain ⟨_, _, _, hm⟩ := hs.id _ _ hl; exact hm
  cases hx : (deleteKey i r (run P ops)).1 with
  | error e =>
    rw [hx] at h2
    exact ⟨⟨fun hh => absurd hh (out_raised hx), fun hh => absurd hh h2.1⟩, fun _ => hrun.trans h2.2.2, fun hh => absurd hh h2.1⟩
  | ok u =>
    rw [hx] at h2
    obtain ⟨g1, g2, g3, _⟩ := h2
    obtain ⟨st', e, _, f1, f2, f3, f4, f5, f6⟩ := Store.removeKey_spec (Store.named hs.cons) hv
    have hst : (run P (ops ++ [.deleteKey i r])).store = st' := by rw [hrun, g2, e]
    refine ⟨⟨fun _ => g1, fun _ => (out_ok (f := fun _ => Out.none) hx).1⟩, fun hh => absurd g1 hh, fun _ => ⟨?_, ?_, fun m => ?_, fun c hc => ?_, ?_, fun k' hk' => ?_, fun q hq => ?_⟩⟩
    · rw [hrun, g3, get_del, if_pos rfl]
    · rw [ask_run S h _ (Or.inl rfl), hst]
      unfold answer keyIn
      dsimp only
      rw [f2, if_neg (not_not_intro hmem), if_neg (not_not_intro ⟨hv, g1⟩), f4, if_pos rfl]
      rfl
    · rw [ask_run S h _ (Or.inl rfl), hst]
      obtain ⟨e, he⟩ := keyIn_none (st := st') (n := m) (k := k0) (by rw [f4, if_pos rfl])
      refine ⟨e, ?_⟩
      unfold answer
      dsimp only
      rw [he]
      rfl
    · rw [hst, f5, if_pos hc]
    · rw [ask_run S h _ (Or.inl rfl), hst]
      unfold answer
      dsimp only
      rw [f2, if_neg (not_not_intro hmem), f3, if_pos g1.symm]
    · rw [hrun, g3, get_del, if_neg hk']
    · rw [ask_run S h _ (Or.inl rfl), ask_run S hd _ (Or.inl rfl), hst]
      have hc' : Consistent st' := by rw [← hst, hrun]; exact h1.cons
      refine answer_congr hs.cons hc' q (fun m _ => by rw [f2]) (fun _ => f1) ?_ ?_ ?_ ?_
      · intro m k' hm hh
        rw [f4, if_neg]
        rintro rfl
        rcases hh with rfl | ⟨c, rfl⟩ | rfl | ⟨rfl, _⟩
        · exact hq rfl
        · exact hq rfl
        · exact hq rfl
        · exact hq hm.symm
      · rintro m rfl
        rw [f3]; exact if_neg hq
      · rintro m k' c hm hkc hh
        rw [f5, if_neg]
        rintro rfl
        rcases hh with rfl | ⟨rfl, _⟩
        · exact hq hkc.symm
        · exact hq hkc.symm
      · rintro m k' hm rfl
        rw [f6]; exact if_neg hq

/-- The default key of the history `exOps` is deleted. -/
example : (perform exP (.deleteKey 0 0) (run exP exOps)).1 = .ok .none :=
  (C66_delete_key exP exSound exOps exA exKey 0 0 (disciplined_add exDisciplined ⟨⟨exA, exLiveA⟩, exKey, exLiveKey, fun _ k' hk' => by
    have e : dictGet (identityOfKey exKey) (run exP exOps).store.defaultKeys = some exKey := by decide +kernel
    rw [e] at hk'
    cases hk'
    rfl⟩) exLiveA exLiveKey).1.2 (by decide +kernel)

theorem deleted_of {s s' s1 : KC} {n : Name} (hs : Coh P strict s) (hs' : Coh P strict s') (hq1 : ∀ q : Query, (strict = true ∨ ¬ q.aboutDefault) → (ask P q s).1 = answer s.store q)
    (hq2 : ∀ q : Query, (strict = true ∨ ¬ q.aboutDefault) → (ask P q s').1 = answer s'.store q) (hst : strict = true) (h1 : Quiet s s1)
    (g2 : s'.store = (Store.removeIdentity n s1.store).2)
    (g3 : ∀ k, (∃ r, identityOfKey k = n ∧ LiveKey s1 k r) → dictGet k s'.tpm = none)
    (g4 : ∀ k, (¬ ∃ r, identityOfKey k = n ∧ LiveKey s1 k r) → dictGet k s'.tpm = dictGet k s1.tpm) : IdentityDeleted P s s' n := by
  rw [h1.store] at g2
  obtain ⟨st', e, _, f1, f2, f3, f4, f5, f6⟩ := Store.removeIdentity_spec hs.cons n
  have hst' : s'.store = st' := by rw [g2, e]
  have hc' : Consistent st' := by rw [← hst']; exact hs'.cons
  have hnm : n ∉ st'.identities := by
    rw [f2]
    intro hh
    have := (List.mem_filter.1 hh).2
    simp at this
  refine ⟨?_, fun k hk => ⟨?_, fun c hc => ?_⟩, fun k r hk hr => ?_, fun hh => ?_, fun hh => ?_, fun k hk => ?_, fun q hq => ?_⟩
  · rw [hq2 _ (.inl hst), hst']; exact if_neg hnm
  · rw [hst', f4, if_pos hk]
  · rw [hst', f5, hc, if_pos hk]
  · exact g3 k ⟨r, hk, h1.ext.key _ _ hr⟩
  · rw [hq2 _ (.inl hst), hst']
    unfold answer
    dsimp only
    rw [f1, if_pos hh]
  · rw [hq2 _ (.inl hst), hq1 _ (.inl hst), hst']
    unfold answer
    dsimp only
    rw [f1, if_neg hh]
  · rw [g4 k (fun ⟨_, hh, _⟩ => hk hh), h1.tpm]
  · rw [hq2 _ (.inl hst), hq1 _ (.inl hst), hst']
    refine answer_congr hs.cons hc' q ?_ ?_ ?_ ?_ ?_ ?_
    · intro m hh
      have hm : m ≠ n := by
        rintro rfl
        rcases hh with rfl | rfl | ⟨_, rfl⟩ | ⟨_, _, rfl⟩ | ⟨_, rfl⟩ <;> exact hq rfl
      rw [f2, List.mem_filter]
      exact ⟨fun h => h.1, fun h => ⟨h, by simpa using hm⟩⟩
    · rintro rfl
      exact absurd trivial hq
    · intro m k hm hh
      rw [f4, if_neg]
      rw [hm]
      rintro rfl
      rcases hh with rfl | ⟨_, rfl⟩ | rfl | ⟨rfl, _⟩ <;> exact hq rfl
    · rintro m rfl
      rw [f3]; exact if_neg hq
    · intro m k c hm hkc hh
      rw [f5, if_neg]
      rw [hkc, hm]
      rintro rfl
      rcases hh with rfl | ⟨rfl, _⟩ <;> exact hq rfl
    · rintro m k hm rfl
      rw [f6, if_neg]
      rw [hm]
      exact hq

/-- C66: `deleteIdentity` returns; the identity, its keys and their certificates are gone, and so are the private keys whose key objects the
KeyChain has; nothing else is changed.  There is no default identity if it was this one. -/
theorem C66_delete_identity (P : Params) (S : Sound P) (ops : List Op) (n : Name) (i : Nat) (h : Disciplined true P (ops ++ [.deleteIdentity i]))
    (hl : LiveId (run P ops) n i) :
    (perform P (.deleteIdentity i) (run P ops)).1 = .ok .none ∧ IdentityDeleted P (run P ops) (run P (ops ++ [.deleteIdentity i])) n := by
  obtain ⟨hd, _⟩ := disciplined_snoc h
  have hs := coh_run S ops hd
  obtain ⟨s', e, h1, h2, h3, h4, _⟩ := deleteIdentity_spec hs hl
  have hrun : run P (ops ++ [.deleteIdentity i]) = s' := by
    rw [run_snoc]
    refine (out_state _ _ _).trans ?_
    rw [e]
  refine ⟨(out_ok (f := fun _ => Out.none) (a := ()) (by rw [e])).1, ?_⟩
  rw [hrun]
  exact deleted_of hs h1 (fun q hq => ask_run S hd q hq) (fun q hq => by rw [← hrun]; exact ask_run S h q hq) rfl (Quiet.refl _) h2 h3 h4

/-- The first identity of the history `exOps`, with two private keys. -/
example : IdentityDeleted exP (run exP exOps) (run exP (exOps ++ [.deleteIdentity 0])) exA ∧ dictGet exKey (run exP exOps).tpm = some 1 :=
  ⟨(C66_delete_identity exP exSound exOps exA 0 (disciplined_add exDisciplined ⟨exA, exLiveA⟩) exLiveA).2, by decide +kernel⟩

/-- C66: with a name: the same if there is such an identity, otherwise nothing is changed. -/
theorem C66_delete_identity_by_name (P : Params) (S : Sound P) (ops : List Op) (n : Name) (h : Disciplined true P (ops ++ [.deleteIdentityByName n])) :
    let s := run P ops
    let s' := run P (ops ++ [.deleteIdentityByName n])
    (perform P (.deleteIdentityByName n) s).1 = .ok .none ∧ (n ∈ s.store.identities → IdentityDeleted P s s' n) ∧
    (n ∉ s.store.identities → s'.store = s.store ∧ s'.tpm = s.tpm) := by
  obtain ⟨hd, _⟩ := disciplined_snoc h
  have hs := coh_run S ops hd
  have hg := getIdentity_spec hs n
  unfold After at hg
  obtain ⟨h1, h2, h3⟩ := hg
  have hrun : run P (ops ++ [.deleteIdentityByName n]) = (deleteIdentityByName n (run P ops)).2 := by rw [run_snoc]; exact out_state _ _ _
  cases hm : getIdentity n (run P ops) with
  | mk x s1 =>
    rw [hm] at h1 h2 h3
    cases x with
    | error e =>
      have e1 : deleteIdentityByName n (run P ops) = (.ok (), s1) := by
        show ((getIdentity n >>= deleteIdentity).exceptAny (pure ())) (run P ops) = _
        unfold M.exceptAny M.except
        rw [bind_err hm]
        rfl
      refine ⟨(out_ok (f := fun _ => Out.none) (a := ()) (by rw [e1])).1, fun hh => absurd hh h3.2, fun _ => ?_⟩
      rw [hrun, e1]
      exact ⟨h2.store, h2.tpm⟩
    | ok i =>
      obtain ⟨s', e, g1, g2, g3, g4, _⟩ := deleteIdentity_spec h1 h3.1
      have e1 : deleteIdentityByName n (run P ops) = (.ok (), s') := by
        show ((getIdentity n >>= deleteIdentity).exceptAny (pure ())) (run P ops) = _
        unfold M.exceptAny M.except
        rw [bind_ok hm, e]
      have hrun' : run P (ops ++ [.deleteIdentityByName n]) = s' := by rw [hrun, e1]
      refine ⟨(out_ok (f := fun _ => Out.none) (a := ()) (by rw [e1])).1, fun _ => ?_, fun hh => absurd h3.2 hh⟩
      rw [hrun']
      exact deleted_of hs g1 (fun q hq => ask_run S hd q hq) (fun q hq => by rw [← hrun']; exact ask_run S h q hq) rfl h2 g2 g3 g4

example : IdentityDeleted exP (run exP exOps) (run exP (exOps ++ [.deleteIdentityByName exA])) exA :=
  (C66_delete_identity_by_name exP exSound exOps exA (disciplined_add exDisciplined trivial)).2.1 (by decide +kernel)

/-- C66: `deleteCertificate` returns if the name is that of a certificate of the key.  Then there is no such certificate, and no default
certificate if it was this one; nothing else is changed.  Otherwise nothing is changed. -/
theorem C66_delete_certificate (P : Params) (S : Sound P) (ops : List Op) (k c : Name) (r : Nat) (h : Disciplined true P (ops ++ [.deleteCertificate r c]))
    (hk : LiveKey (run P ops) k r) :
    let s := run P ops
    let s' := run P (ops ++ [.deleteCertificate r c])
    ((perform P (.deleteCertificate r c) s).1 = .ok .none ↔ isCertName c = true ∧ keyOfCert c = k) ∧ s'.tpm = s.tpm ∧
    (¬ (isCertName c = true ∧ keyOfCert c = k) → s'.store = s.store) ∧
    (isCertName c = true ∧ keyOfCert c = k →
      (ask P (.cert (identityOfKey k) k c) s').1 = .error .pib ∧ dictGet c s'.store.certs = none ∧
      (dictGet k s.store.defaultCerts = some c → (ask P (.defaultCert (identityOfKey k) k) s').1 = .error .pib) ∧
      (dictGet k s.store.defaultCerts ≠ some c → (ask P (.defaultCert (identityOfKey k) k) s').1 = (ask P (.defaultCert (identityOfKey k) k) s).1) ∧
      ∀ q : Query, ¬ q.aboutCert c → (ask P q s').1 = (ask P q s).1) := by
  obtain ⟨hd, _⟩ := disciplined_snoc h
  have hs := coh_run S ops hd
  have hrun : run P (ops ++ [.deleteCertificate r c]) = (deleteCertificate r c (run P ops)).2 := by rw [run_snoc]; exact out_state _ _ _
  have hoff : ¬ (isCertName c = true ∧ keyOfCert c = k) → ∃ e s', deleteCertificate r c (run P ops) = (.error e, s') ∧ s'.store = (run P ops).store ∧ s'.tpm = (run P ops).tpm := by
    intro hh
    unfold deleteCertificate
    cases hcn : isCertName c with
    | false => rw [check_false _ rfl]; exact ⟨_, _, rfl, rfl, rfl⟩
    | true =>
      rw [check_true _ rfl]
      have hspec := keyRemoveCertificate_spec hs hk c
      unfold After at hspec
      cases hm : keyRemoveCertificate r c (run P ops) with
      | mk x s1 =>
        rw [hm] at hspec
        obtain ⟨_, _, h3, h4⟩ := hspec
        cases x with
        | ok u => exact absurd ⟨hcn, h4.1⟩ hh
        | error e => exact ⟨_, _, rfl, h4.2.1, h3⟩
  by_cases hh : isCertName c = true ∧ keyOfCert c = k
  · obtain ⟨hcn, hkc⟩ := hh
    have he : deleteCertificate r c (run P ops) = keyRemoveCertificate r c (run P ops) := by
      unfold deleteCertificate
      rw [check_true _ hcn]
    have hspec := keyRemoveCertificate_spec hs hk c
    unfold After at hspec
    rw [← he] at hspec
    obtain ⟨h1, _, h3, h4⟩ := hspec
    cases hx : (deleteCertificate r c (run P ops)).1 with
    | error e =>
      rw [hx] at h4
      exact absurd ⟨hcn, hkc⟩ h4.2.2
    | ok u =>
      rw [hx] at h4
      obtain ⟨_, g2, g3⟩ := h4
      rw [← hrun] at h1 h3 g2 g3
      rw [Store.removeCertificate_eq _ hcn] at g2
      dsimp only at g2
      obtain ⟨key, _, hf, hv, hid⟩ := hs.stored hk
      refine ⟨⟨fun _ => ⟨hcn, hkc⟩, fun _ => (out_ok (f := fun _ => Out.none) hx).1⟩, h3, fun hn => absurd ⟨hcn, hkc⟩ hn, fun _ => ⟨?_, g3, fun hdc => ?_, fun hdc => ?_, fun q hq => ?_⟩⟩
      · rw [ask_run S h _ (Or.inl rfl)]
        unfold answer
        dsimp only
        rw [keyIn_ok h1.cons (bits := key.bits) (by rw [g2]; exact hf.bits)]
        show (if ¬ (isCertName c = true ∧ keyOfCert c = k) then _ else _) = _
        rw [if_neg (not_not_intro ⟨hcn, hkc⟩), g3]
      · rw [ask_run S h _ (Or.inl rfl)]
        unfold answer
        dsimp only
        rw [keyIn_ok h1.cons (bits := key.bits) (by rw [g2]; exact hf.bits), g2, hkc]
        show (match (dictGet k (if dictGet k (run P ops).store.defaultCerts = some c then dictDel k (run P ops).store.defaultCerts else (run P ops).store.defaultCerts)).bind (dictGet · (dictDel c (run P ops).store.certs)) with | none => Except.error KErr.pib | some d => .ok (Answer.cert d)) = _
        rw [if_pos hdc, get_del, if_pos rfl]
        rfl
      · rw [ask_run S h _ (Or.inl rfl), ask_run S hd _ (Or.inl rfl)]
        refine answer_congr hs.cons h1.cons _ (fun _ _ => by rw [g2]) (fun _ => by rw [g2]) (fun _ _ _ _ => by rw [g2]) (fun _ _ => by rw [g2]) ?_ ?_
        · intro m k' c' hm hkc' hh
          rcases hh with hh | ⟨hh, h5⟩
          · nomatch hh
          · injection hh with e1 e2
            subst e2
            rw [g2]
            show dictGet c' (dictDel c _) = _
            rw [get_del, if_neg]
            rintro rfl
            exact hdc h5
        · intro m k' hm hh
          rw [g2, hkc]
          show dictGet k' (if _ then _ else _) = _
          rw [if_neg hdc]
      · rw [ask_run S h _ (Or.inl rfl), ask_run S hd _ (Or.inl rfl)]
        refine answer_congr hs.cons h1.cons _ (fun _ _ => by rw [g2]) (fun _ => by rw [g2]) (fun _ _ _ _ => by rw [g2]) (fun _ _ => by rw [g2]) ?_ ?_
        · intro m k' c' hm hkc' hh
          rw [g2]
          show dictGet c' (dictDel c _) = _
          rw [get_del, if_neg]
          rintro rfl
          rcases hh with rfl | ⟨rfl, _⟩
          · exact hq rfl
          · exact hq hkc'.symm
        · rintro m k' hm rfl
          rw [g2]
          show dictGet k' (if _ then dictDel _ _ else _) = _
          split
          · rw [get_del]; exact if_neg hq
          · rfl
  · obtain ⟨e, s1, e1, e2, e3⟩ := hoff hh
    refine ⟨⟨fun hx => absurd hx (out_raised (e := e) (by rw [e1])), fun hx => absurd hx hh⟩, ?_, fun _ => ?_, fun hx => absurd hx hh⟩
    · rw [hrun, e1]; exact e3
    · rw [hrun, e1]; exact e2

/-- The default certificate of a key is deleted. -/
example : ∃ c, dictGet exKey (run exP exOps).store.defaultCerts = some c ∧ (perform exP (.deleteCertificate 0 c) (run exP exOps)).1 = .ok .none :=
  ⟨(dictGet exKey (run exP exOps).store.defaultCerts).getD [], by decide +kernel,
    (C66_delete_certificate exP exSound exOps exKey _ 0 (disciplined_add exDisciplined ⟨_, exLiveKey⟩) exLiveKey).1.2 (by decide +kernel)⟩

/-- C66: a certificate of a key can be exported, with the private key; and what was exported can be imported in a KeyChain that does not
have this private key, with the same password.  Then this KeyChain has the identity, the key with the same public key and the same private
key, and the certificate, as the default certificate of the key. -/
theorem C66_safe_bag (P : Params) (S : Sound P) (strict : Bool) (ops1 ops2 : List Op) (c : Data) (password : Option Bytes) (random : Nat)
    (hw : ∀ p, P.unwrap (P.wrap p password) password = some p)
    (h1 : Disciplined strict P ops1) (h2 : Disciplined true P ops2) (hc : dictGet c.name (run P ops1).store.certs = some c) (hck : checkCert c = .ok ())
    (hn : dictGet (keyOfCert c.name) (run P ops2).tpm = none) :
    ∃ p bag, dictGet (keyOfCert c.name) (run P ops1).tpm = some p ∧ (exportSafeBag P c password (run P ops1)) = (.ok (c, bag), run P ops1) ∧
      let op : Op := .importSafeBag c bag password random
      let s' := run P (ops2 ++ [op])
      Disciplined true P (ops2 ++ [op]) ∧ (perform P op (run P ops2)).1 = .ok .none ∧
      s'.tpm = dictSet (keyOfCert c.name) p (run P ops2).tpm ∧
      (ask P (.identity (identityOfCert c.name)) s').1 = .ok (.identity (identityOfCert c.name)) ∧
      (ask P (.key (identityOfCert c.name) (keyOfCert c.name)) s').1 = .ok (.key (keyOfCert c.name) (P.publicKey p)) ∧
      (ask P (.cert (identityOfCert c.name) (keyOfCert c.name) c.name) s').1 = .ok (.cert c) ∧
      (ask P (.defaultCert (identityOfCert c.name) (keyOfCert c.name)) s').1 = .ok (.cert c) := by
  have hs1 := coh_run S ops1 h1
  have hs2 := coh_run S ops2 h2
  obtain ⟨hcn, ⟨bits, hb⟩, _⟩ := hs1.cons.cert _ _ hc
  obtain ⟨p, hp, hpb⟩ := hs1.tpm _ _ hb
  have hcont : c.content = some (P.publicKey p) := by rw [← hs1.content _ _ hc, hb, hpb]
  have hv := (hs1.cons.key _ _ hb).1
  have hprop : Proper true P (run P ops2) (.importSafeBag c (P.wrap p password) password random) := by
    intro p' hu _
    rw [hw] at hu
    cases hu
    exact hcont
  have hdis : Disciplined true P (ops2 ++ [.importSafeBag c (P.wrap p password) password random]) := by
    intro a op b e
    rcases List.eq_nil_or_concat b with rfl | ⟨b', x, rfl⟩
    · have := List.append_inj_left' e rfl
      have e2 := List.append_inj_right' e rfl
      subst this
      cases e2
      exact hprop
    · rw [List.concat_eq_append] at e
      have e' : ops2 ++ [Op.importSafeBag c (P.wrap p password) password random] = (a ++ op :: b') ++ [x] := by rw [e]; simp
      exact h2 a op b' (List.append_inj_left' e' rfl)
  refine ⟨p, P.wrap p password, hp, ?_, hdis, ?_⟩
  · unfold exportSafeBag
    rw [get_bind, orRaise_some _ hp]
    rfl
  · have hspec := importSafeBag_spec S hs2 c (P.wrap p password) password random hprop
    unfold After at hspec
    obtain ⟨g1, _, g3⟩ := hspec
    have hrun : run P (ops2 ++ [.importSafeBag c (P.wrap p password) password random]) = (importSafeBag P c (P.wrap p password) password random (run P ops2)).2 := by
      rw [run_snoc]; exact out_state _ _ _
    cases hx : (importSafeBag P c (P.wrap p password) password random (run P ops2)).1 with
    | error e =>
      rw [hx] at g3
      exact absurd ⟨hck, hn, hv, p, hw p, hcont⟩ g3.1
    | ok u =>
      rw [hx] at g3
      obtain ⟨_, _, _, ⟨p', f1, f2⟩, f3, f4, f5, f6⟩ := g3
      rw [hw] at f1
      cases f1
      rw [← hrun] at g1 f2 f3 f4 f5 f6
      refine ⟨(out_ok (f := fun _ => Out.none) hx).1, f2, ?_, ?_, ?_, ?_⟩
      · rw [ask_run S hdis _ (Or.inl rfl)]; exact answer_identity f4
      · rw [ask_run S hdis _ (Or.inl rfl)]; exact answer_key g1.cons (identityOfCert_eq _).symm (f3.trans hcont)
      · rw [ask_run S hdis _ (Or.inl rfl)]; exact answer_cert g1.cons (identityOfCert_eq _).symm rfl f5
      · rw [ask_run S hdis _ (Or.inl rfl)]; exact answer_defaultCert g1.cons (identityOfCert_eq _).symm f6 f5

/-- C66: if `importSafeBag` raises, nothing is changed in the PIB and in the TPM, if the certificate names an identity. -/
theorem C66_import_raises (P : Params) (S : Sound P) (strict : Bool) (ops : List Op) (c : Data) (bag : Bytes) (password : Option Bytes) (random : Nat)
    (h : Disciplined strict P (ops ++ [.importSafeBag c bag password random])) (hc : identityOfCert c.name ≠ []) {e : KErr}
    (ho : (perform P (.importSafeBag c bag password random) (run P ops)).1 = .error e) :
    (run P (ops ++ [.importSafeBag c bag password random])).store = (run P ops).store ∧
    ∀ k, dictGet k (run P (ops ++ [.importSafeBag c bag password random])).tpm = dictGet k (run P ops).tpm := by
  obtain ⟨hd, hp⟩ := disciplined_snoc h
  have hspec := importSafeBag_spec S (coh_run S ops hd) c bag password random hp
  unfold After at hspec
  obtain ⟨_, _, h3⟩ := hspec
  have hrun : run P (ops ++ [.importSafeBag c bag password random]) = (importSafeBag P c bag password random (run P ops)).2 := by
    rw [run_snoc]; exact out_state _ _ _
  cases hx : (importSafeBag P c bag password random (run P ops)).1 with
  | ok u =>
    have := (out_ok (f := fun _ => Out.none) hx).1
    exact nomatch ho.symm.trans this
  | error e' =>
    rw [hx] at h3
    rw [hrun]
    by_cases hv : isValidKeyName (keyOfCert c.name) = true
    · exact h3.2 hv
    · -- then the certificate is refused
      have hck : ∃ e, checkCert c = .error e := by
        cases hck : checkCert c with
        | error e => exact ⟨e, rfl⟩
        | ok u =>
          refine absurd ?_ hv
          have h1 := (checkCert_content hck).1
          unfold isCertName at h1
          unfold isValidKeyName keyOfCert
          unfold identityOfCert at hc
          have hlen : c.name.length - 4 ≠ 0 := fun h0 => hc (by rw [h0]; rfl)
          rw [Bool.and_eq_true] at h1 ⊢
          rw [List.length_take]
          refine ⟨by simp only [decide_eq_true_eq]; omega, ?_⟩
          rw [List.getElem?_take_of_lt (by omega), show min (c.name.length - 2) c.name.length - 2 = c.name.length - 4 by omega]
          exact h1.2
      obtain ⟨e, hck⟩ := hck
      have : importSafeBag P c bag password random (run P ops) = (.error (.py e), run P ops) := by
        unfold importSafeBag
        rw [hck, lift_bind_error rfl]
      rw [this]
      exact ⟨rfl, fun _ => rfl⟩

/-- A SafeBag that was imported already. -/
example : (perform exP (.importSafeBag exCert [1] none 0) (run exP exOps)).1 = .error .keyChain := by decide +kernel

/-- A certificate is exported, and imported in a KeyChain with another identity. -/
example : ∃ p bag, dictGet (keyOfCert exCert.name) (run exP (exOps ++ [.setDefaultCertificate 0 exCert])).tpm = some p ∧
    (perform exP (.importSafeBag exCert bag none 0) (run exP [.createIdentity exB (exGen 3)])).1 = .ok .none := by
  obtain ⟨p, bag, h1, _, _, h2, _⟩ := C66_safe_bag exP exSound true (exOps ++ [.setDefaultCertificate 0 exCert]) ([] ++ [.createIdentity exB (exGen 3)]) exCert none 0
    (fun p => by show some (List.replicate p (1 : UInt8)).length = _; rw [List.length_replicate]) exAddCert (disciplined_add (op := .createIdentity exB (exGen 3)) disciplined_nil (fun h => nomatch h))
    (by decide +kernel) (by decide +kernel) (by decide +kernel)
  exact ⟨p, bag, h1, h2⟩

end KeyChain
end PyNDN
