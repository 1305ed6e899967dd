import Verif.Lemmas.KeySigning
/-
The objects of a KeyChain and the stored PIB, in a history.
-/
namespace PyNDN
namespace KeyChain
open PSync (dictGet dictSet dictDel dictGet_none dictGet_some)
open Spec
open Spec.KeyChain

variable {P : Params} {strict : Bool} {s : KC}

theorem After.of_run {σ α : Type} {m m' : M σ α} {s s' : σ} {Q : Except KErr α → σ → Prop} (e : m s = m' s') (h : After m' s' Q) : After m s Q := by
  unfold After at *; rw [e]; exact h

/-- What is there after `createIdentityV2`. -/
structure IdentityCreated (P : Params) (strict : Bool) (s s' : KC) (n : Name) (g : Gen) : Prop where
  identity : n ∈ s'.store.identities
  default : n ∉ s.store.identities → s'.store.defaultIdentity = some (s.store.defaultIdentity.getD n)
  key : ∃ k c d, (strict = true → dictGet n s'.store.defaultKeys = some k) ∧ identityOfKey k = n ∧ dictGet k s'.store.keys ≠ none ∧
    dictGet k s'.store.defaultCerts = some c ∧ dictGet c s'.store.certs = some d
  old : dictGet n s.store.defaultKeys ≠ none → s'.store = s.store ∧ s'.tpm = s.tpm

theorem Coh.defaultKey_identity (hs : Coh P strict s) {n k : Name} (h : dictGet n s.store.defaultKeys = some k) : n ∈ s.store.identities := by
  obtain ⟨⟨b, hb⟩, he⟩ := hs.cons.defaultKey n k h
  rw [← he]
  exact (hs.cons.key k b hb).2

theorem createIdentity_spec (S : Sound P) (hs : Coh P strict s) (n : Name) (g : Gen) (hg : FreshId P s n g) :
    After (createIdentity P n g) s fun x s' => Coh P strict s' ∧ Ext s s' ∧
    match x with
    | .ok h => LiveId s' n h ∧ IdentityCreated P strict s s' n g
    | .error _ => (dictGet n s.store.defaultKeys = none ∧ ¬ Creatable P s n g) ∨
        ∃ k, identityOfKey k = n ∧ dictGet k s.store.keys ≠ none ∧ (strict = true → dictGet n s.store.defaultKeys = some k) ∧ dictGet k s.store.defaultCerts = none := by
  unfold createIdentity
  refine After.bind ((addIdentity_spec hs n).mono ?_)
  rintro x s1 ⟨a1, a2, a3, a4, h, rfl, hl⟩
  dsimp only
  have ad : s1.store.defaultKeys = s.store.defaultKeys := by rw [a4]; split <;> rfl
  have ak : s1.store.keys = s.store.keys := by rw [a4]; split <;> rfl
  have ac : s1.store.defaultCerts = s.store.defaultCerts := by rw [a4]; split <;> rfl
  have ai : n ∉ s.store.identities → s1.store.defaultIdentity = some (s.store.defaultIdentity.getD n) := fun hn => by
    rw [a4, if_neg hn]
    show (if s.store.defaultIdentity = none then some n else s.store.defaultIdentity) = _
    cases s.store.defaultIdentity <;> rfl
  have aold : ∀ k, dictGet n s.store.defaultKeys = some k → s1.store = s.store := fun k hk => by rw [a4, if_pos (hs.defaultKey_identity hk)]
  -- the end, with a key object
  have hend : ∀ (s2 : KC) (k : Name) (r : Nat), Coh P strict s2 → Ext s s2 → LiveId s2 n h → LiveKey s2 k r → identityOfKey k = n → (strict = true → dictGet n s2.store.defaultKeys = some k) →
      (n ∉ s.store.identities → s2.store.defaultIdentity = some (s.store.defaultIdentity.getD n)) →
      (dictGet n s.store.defaultKeys ≠ none → s2.store = s.store ∧ s2.tpm = s.tpm) →
      (dictGet k s2.store.defaultCerts = none → dictGet k s.store.keys ≠ none ∧ (strict = true → dictGet n s.store.defaultKeys = some k) ∧ dictGet k s.store.defaultCerts = none) →
      After (do (do let _ ← keyGetDefaultCertificate r : K Unit).exceptPib (raise (.py .type)); return h) s2 fun x s' => Coh P strict s' ∧ Ext s s' ∧
        match x with
        | .ok h => LiveId s' n h ∧ IdentityCreated P strict s s' n g
        | .error _ => (dictGet n s.store.defaultKeys = none ∧ ¬ Creatable P s n g) ∨
            ∃ k, identityOfKey k = n ∧ dictGet k s.store.keys ≠ none ∧ (strict = true → dictGet n s.store.defaultKeys = some k) ∧ dictGet k s.store.defaultCerts = none := by
    intro s2 k r b1 b2 b3 b4 b5 b6 b7 b8 b9
    refine After.bind (After.exceptPib (After.bind ((keyGetDefaultCertificate_spec b1 b4).mono ?_)))
    rintro x s3 ⟨c1, c2, c3⟩
    cases x with
    | error e =>
      obtain ⟨rfl, c3⟩ := c3
      obtain ⟨q1, q2, q3⟩ := b9 c3
      exact ⟨c1, b2.trans c2.ext, Or.inr ⟨k, b5, q1, q2, q3⟩⟩
    | ok d =>
      obtain ⟨c3, c4, _⟩ := c3
      obtain ⟨key, _, hf, _, hid⟩ := b1.stored b4
      obtain ⟨⟨d', hd'⟩, _⟩ := b1.cons.defaultCert _ _ c3
      show Coh P strict s3 ∧ Ext s s3 ∧ LiveId s3 n h ∧ IdentityCreated P strict s s3 n g
      refine ⟨c1, b2.trans c2.ext, c2.ext.id _ _ b3, ⟨?_, ?_, ⟨k, d.name, d', ?_, b5, ?_, ?_, ?_⟩, ?_⟩⟩
      · rw [c2.store, ← b5]; exact hid
      · rw [c2.store]; exact b7
      · rw [c2.store]; exact b6
      · rw [c2.store, hf.bits]; exact fun h => nomatch h
      · rw [c2.store]; exact c3
      · rw [c2.store]; exact hd'
      · rw [c2.store, c2.tpm]; exact b8
  refine After.bind (After.exceptPib ((idGetDefaultKey_spec S a1 hl).mono ?_))
  rintro x s2 ⟨b1, b2, b3⟩
  cases x with
  | error e =>
    obtain ⟨rfl, b3⟩ := b3
    have hl2 := b2.ext.id _ _ hl
    have hnone : dictGet n s.store.defaultKeys = none := by rw [← ad]; exact b3
    have htpm : s2.tpm = s.tpm := b2.tpm.trans a3
    refine (createKey_spec S b1 hl2 g (by unfold FreshId; rw [htpm]; exact hg)).mono ?_
    rintro x s3 ⟨c1, c2, c3⟩
    cases x with
    | error e =>
      refine ⟨c1, (a2.trans b2.ext).trans c2, Or.inl ⟨hnone, fun hc => c3 ?_⟩⟩
      unfold Creatable at hc ⊢
      rw [htpm]
      exact hc
    | ok r =>
      obtain ⟨k, c3, c4⟩ := c3
      obtain ⟨v, d, e1, e2, e3, e4⟩ := c4.cert
      obtain ⟨id, hid, _⟩ := c4.name
      refine hend s3 k r c1 ((a2.trans b2.ext).trans c2) (c2.id _ _ hl2) c3 (by rw [hid]; exact identityOfKey_construct n id) (fun _ => ?_) (fun hn => ?_) (fun hh => absurd hnone hh) (fun hh => ?_)
      · rw [c4.defaultKey, b2.store, b3]; rfl
      · rw [c4.defaultIdentity, b2.store, ai hn]; rfl
      · rw [e2] at hh; nomatch hh
  | ok r =>
    obtain ⟨k, b3, b4, b5⟩ := b3
    obtain ⟨key, _, hf, _, _⟩ := b1.stored b3
    refine hend s2 k r b1 (a2.trans b2.ext) (b2.ext.id _ _ hl) b3 b4 (fun hh => by rw [b2.store]; exact b5 hh) (fun hn => by rw [b2.store]; exact ai hn) (fun hh => ?_) (fun hh => ⟨?_, fun hst => ?_, ?_⟩)
    · cases hd : dictGet n s.store.defaultKeys with
      | none => exact absurd hd hh
      | some k' => exact ⟨b2.store.trans (aold k' hd), b2.tpm.trans a3⟩
    · rw [← ak, ← b2.store, hf.bits]; exact fun h => nomatch h
    · rw [← ad]; exact b5 hst
    · rw [← ac, ← b2.store]; exact hh

theorem importSafeBag_spec (S : Sound P) (hs : Coh P strict s) (c : Data) (bag : Bytes) (password : Option Bytes) (random : Nat)
    (hp : Proper strict P s (.importSafeBag c bag password random)) :
    After (importSafeBag P c bag password random) s fun x s' => Coh P strict s' ∧ Ext s s' ∧
    match x with
    | .ok _ => checkCert c = .ok () ∧ dictGet (keyOfCert c.name) s.store.keys = none ∧ dictGet (keyOfCert c.name) s.tpm = none ∧
        (∃ p, P.unwrap bag password = some p ∧ s'.tpm = dictSet (keyOfCert c.name) p s.tpm) ∧
        dictGet (keyOfCert c.name) s'.store.keys = c.content ∧ identityOfCert c.name ∈ s'.store.identities ∧
        dictGet c.name s'.store.certs = some c ∧ dictGet (keyOfCert c.name) s'.store.defaultCerts = some c.name
    | .error _ => ¬ (checkCert c = .ok () ∧ dictGet (keyOfCert c.name) s.tpm = none ∧ isValidKeyName (keyOfCert c.name) = true ∧
        ∃ p, P.unwrap bag password = some p ∧ c.content = some (P.publicKey p)) ∧
        (isValidKeyName (keyOfCert c.name) = true → s'.store = s.store ∧ ∀ k, dictGet k s'.tpm = dictGet k s.tpm) := by
  unfold After importSafeBag
  cases hck : checkCert c with
  | error e => rw [lift_bind_error rfl]; exact ⟨hs, Ext.refl s, (fun hh => nomatch hh.1), fun _ => ⟨rfl, fun _ => rfl⟩⟩
  | ok u =>
    obtain ⟨hcn, bits, hcb, hbne⟩ := checkCert_content hck
    rw [lift_bind_ok rfl]
    dsimp only
    rw [get_bind]
    cases htp : (dictGet (keyOfCert c.name) s.tpm).isNone with
    | false =>
      rw [check_false _ rfl]
      refine ⟨hs, Ext.refl s, fun hh => ?_, fun _ => ⟨rfl, fun _ => rfl⟩⟩
      rw [hh.2.1] at htp
      nomatch htp
    | true =>
      rw [check_true _ rfl]
      have htn := Option.isNone_iff_eq_none.1 htp
      have hno := hs.unstored htn
      -- looking for the key
      have hfind : After ((do let _ ← keyGet P (← getIdentity (identityOfCert c.name)) (keyOfCert c.name); return true : K Bool).exceptPib (pure false)) s
          fun x s' => Coh P strict s' ∧ Quiet s s' ∧ (x = .ok false ∨ (∃ e, x = .error e) ∧ isValidKeyName (keyOfCert c.name) ≠ true) := by
        refine After.exceptPib (After.bind ((getIdentity_spec hs _).mono ?_))
        rintro x s1 ⟨g1, g2, g3⟩
        cases x with
        | error e => obtain ⟨rfl, _⟩ := g3; exact ⟨g1, g2, Or.inl rfl⟩
        | ok h =>
          refine After.bind ((keyGet_spec S g1 g3.1 _).mono ?_)
          rintro x s2 ⟨f1, f2, f3⟩
          cases x with
          | error e =>
            rcases f3 with ⟨hh, rfl, _⟩ | ⟨rfl, _⟩
            · exact ⟨f1, g2.trans f2, Or.inr ⟨⟨_, rfl⟩, fun hv => hh ⟨hv, (identityOfCert_eq _).symm⟩⟩⟩
            · exact ⟨f1, g2.trans f2, Or.inl rfl⟩
          | ok r =>
            obtain ⟨_, _, _, ⟨b, hb⟩, _⟩ := f3
            rw [g2.store, hno] at hb
            nomatch hb
      obtain ⟨g1, g2, g3⟩ := hfind
      rw [bind_run]
      cases eq : (do let _ ← keyGet P (← getIdentity (identityOfCert c.name)) (keyOfCert c.name); return true : K Bool).exceptPib (pure false) s with
      | mk x s1 =>
        rw [eq] at g1 g2 g3
        dsimp only at g1 g2 g3
        rcases g3 with rfl | ⟨⟨e, rfl⟩, hnv⟩
        rotate_left
        · exact ⟨g1, g2.ext, fun hh => hnv hh.2.2.1, fun hh => absurd hh hnv⟩
        · dsimp only
          rw [check_true _ (show (!false) = true from rfl)]
          cases hu : P.unwrap bag password with
          | none => exact ⟨g1, g2.ext, (fun ⟨_, _, _, p, hh, _⟩ => nomatch hh), fun _ => ⟨g2.store, fun k => by show dictGet k s1.tpm = _; rw [g2.tpm]⟩⟩
          | some p =>
            rw [orRaise_some _ rfl, modify_bind]
            have h2 := coh_tpmImport g1 (k := keyOfCert c.name) (by rw [g2.tpm]; exact htn) p
            generalize hs2 : ({ s1 with tpm := dictSet (keyOfCert c.name) p s1.tpm } : KC) = s2 at h2
            have hst2 : s2.store = s.store := by rw [← hs2]; exact g2.store
            have htp2 : s2.tpm = dictSet (keyOfCert c.name) p s.tpm := by rw [← hs2, ← g2.tpm]
            have hext2 : Ext s s2 := by
              rw [← hs2]
              exact ⟨fun n h hh => g2.ext.id n h hh, fun k r hh => g2.ext.key k r hh⟩
            obtain ⟨s3, e3, i1, i2⟩ := tpmSign_spec h2 random [1, 2, 3, 4] (keyOfCert c.name)
            rw [bind_ok e3]
            have hpk : dictGet (keyOfCert c.name) s2.tpm = some p := by rw [htp2, get_set, if_pos rfl]
            have hpk3 : dictGet (keyOfCert c.name) s3.tpm = some p := by rw [i2.tpm]; exact hpk
            have hno3 : dictGet (keyOfCert c.name) s3.store.keys = none := by rw [i2.store, hst2]; exact hno
            rw [hpk]
            cases hver : ((P.keyType (c.content.getD [])).isSome && (match P.verify [1, 2, 3, 4] (Option.map (fun p => P.sign p random [1, 2, 3, 4]) (some p)) (c.content.getD []) with | .ok v => v | .error _ => false)) with
            | false =>
              rw [if_pos (show (!false) = true from rfl)]
              have := coh_tpmDelete i1 hno3
              refine ⟨this, ⟨fun n h hh => i2.ext.id n h (hext2.id n h hh), fun k r hh => i2.ext.key k r (hext2.key k r hh)⟩, ?_, fun _ => ⟨i2.store.trans hst2, fun k => ?_⟩⟩
              rotate_left
              · show dictGet k (dictDel _ s3.tpm) = _
                rw [get_del, i2.tpm, htp2, get_set]
                split
                · next hk => rw [hk]; exact htn.symm
                · rfl
              rintro ⟨_, _, _, p', hp', hcp⟩
              cases hp'
              rw [hcp] at hver
              have hver' : ((P.keyType (P.publicKey p)).isSome && (match P.verify [1, 2, 3, 4] (some (P.sign p random [1, 2, 3, 4])) (P.publicKey p) with | .ok v => v | .error _ => false)) = false := hver
              rw [S.verify] at hver'
              rcases S.type p with h | h <;> rw [h] at hver' <;> nomatch hver'
            | true =>
              rw [if_neg (by decide)]
              have hv : P.verify testContent (some (P.sign p random testContent)) (c.content.getD []) = .ok true := by
                have hv := (Bool.and_eq_true _ _ ▸ hver).2
                unfold testContent
                revert hv
                show (match P.verify [1, 2, 3, 4] (some (P.sign p random [1, 2, 3, 4])) (c.content.getD []) with | .ok v => v | .error _ => false) = true → _
                cases P.verify [1, 2, 3, 4] (some (P.sign p random [1, 2, 3, 4])) (c.content.getD []) with
                | error e => exact fun h => nomatch h
                | ok v => intro h; cases h; rfl
              have hcp := hp p hu hv
              obtain ⟨j1, j2, j3, j4, h, j5, j6⟩ := addIdentity_spec i1 (identityOfCert c.name)
              rw [bind_run]
              cases eq4 : addIdentity (identityOfCert c.name) s3 with
              | mk y s4 =>
                rw [eq4] at j1 j2 j3 j4 j5 j6
                dsimp only at j1 j2 j3 j4 j5 j6
                subst j5
                dsimp only
                have hno4 : dictGet (keyOfCert c.name) s4.store.keys = none := by rw [j4]; split <;> exact hno3
                by_cases hvk : isValidKeyName (keyOfCert c.name) = true
                · obtain ⟨r, s5, e5, k1, k2, k3, k4, k5⟩ := keyAdd_spec S j1 j6 hvk (identityOfCert_eq _).symm hno4 (p := p) (by rw [j3]; exact hpk3)
                  have hb : c.content.getD [] = P.publicKey p := by rw [hcp]; rfl
                  rw [hb, bind_ok e5]
                  have hb5 : dictGet (keyOfCert c.name) s5.store.keys = some (P.publicKey p) := by
                    rw [k5]
                    show dictGet _ (dictSet _ _ s4.store.keys) = _
                    rw [get_set, if_pos rfl]
                  have hnoc : ∀ y, keyOfCert y = keyOfCert c.name → dictGet y s5.store.certs = none := fun y hy => by
                    rw [k5]
                    show dictGet y s4.store.certs = none
                    cases hd : dictGet y s4.store.certs with
                    | none => rfl
                    | some d =>
                      obtain ⟨_, ⟨b, hb⟩, _⟩ := j1.cons.cert _ _ hd
                      rw [hy, hno4] at hb
                      nomatch hb
                  obtain ⟨l1, l2, l3, l4⟩ := certAdd_spec k1 k4 (c := c) (fun _ => by rw [hb5]; exact hcp) (fun _ d hd => by rw [hnoc _ rfl] at hd; nomatch hd)
                  unfold keyAddCertificate
                  refine ⟨l1, ?_, ?_⟩
                  · exact ((((hext2.trans i2.ext).trans j2).trans k2).trans l2)
                  · cases eq6 : certAdd r c s5 with
                    | mk z s6 =>
                      rw [eq6] at l1 l2 l3 l4
                      cases z with
                      | error e => exact absurd ⟨hck, rfl⟩ l4.2
                      | ok u =>
                        dsimp only at l3 l4 ⊢
                        obtain ⟨m1, m2, m3, m4, m5, m6, _⟩ := l4
                        refine ⟨rfl, hno, htn, ⟨p, rfl, ?_⟩, ?_, ?_, ?_, ?_⟩
                        · rw [l3, k3, j3, i2.tpm, htp2]
                        · rw [m3, hb5]; exact hcp.symm
                        · rw [m4, k5]
                          show identityOfCert c.name ∈ (if identityOfCert c.name ∈ s4.store.identities then s4.store.identities else s4.store.identities ++ [identityOfCert c.name])
                          split
                          · assumption
                          · exact List.mem_append_right _ List.mem_cons_self
                        · rw [m5, if_pos rfl]
                        · refine (m6 _).trans (if_pos ⟨rfl, ?_⟩)
                          cases hd : dictGet (keyOfCert c.name) s5.store.defaultCerts with
                          | none => rfl
                          | some y =>
                            obtain ⟨⟨d, hd'⟩, hy⟩ := k1.cons.defaultCert _ _ hd
                            rw [hnoc y hy] at hd'
                            nomatch hd'
                · have e5 := keyAdd_invalid j1 j6 (P := P) (fun hh => hvk hh.1) (c.content.getD [])
                  rw [bind_err e5]
                  exact ⟨j1, (hext2.trans i2.ext).trans j2, fun hh => hvk hh.2.2.1, fun hh => absurd hh hvk⟩

theorem setDefaultKey_spec (S : Sound P) (hs : Coh P strict s) {n : Name} {h : Nat} (hl : LiveId s n h) {k : Name} {r : Nat} (hk : LiveKey s k r) :
    After (setDefaultKey P h r) s fun x s' => Coh P strict s' ∧ Ext s s' ∧ s'.tpm = s.tpm ∧
    match x with
    | .ok _ => identityOfKey k = n ∧ s'.store = { s.store with defaultKeys := dictSet n k s.store.defaultKeys }
    | .error _ => identityOfKey k ≠ n ∧ s' = s := by
  obtain ⟨i, hi, hin, _⟩ := hs.id n h hl
  obtain ⟨key, hkey, hf⟩ := hs.live hk
  unfold setDefaultKey
  refine After.of_run (by rw [idImpl_some hi, keyImpl_some hkey, hf.name, hin]) ?_
  cases hc : n.equals (identityOfKey k) with
  | false =>
    refine ⟨hs, Ext.refl s, rfl, fun hh => ?_, rfl⟩
    rw [equals_iff.2 hh.symm] at hc
    nomatch hc
  | true =>
    refine After.of_run (check_true _ rfl _ _) (After.bind ((idSetDefaultKey_spec S hs hl k).mono ?_))
    rintro x s1 ⟨g1, g2, g3, g4⟩
    cases x with
    | error e => exact absurd ⟨(equals_iff.1 hc).symm, _, hf.bits⟩ g4.2
    | ok r' => exact ⟨g1, g2, g3, g4.2.1, g4.2.2⟩

theorem addCertificate_spec (hs : Coh P strict s) {k : Name} {r : Nat} (hk : LiveKey s k r) {c : Data}
    (hst : strict = true → ∀ d, dictGet c.name s.store.certs = some d → d = c) :
    After (addCertificate r c) s fun x s' => Coh P strict s' ∧ Ext s s' ∧ s'.tpm = s.tpm ∧
    match x with
    | .ok _ => checkCert c = .ok () ∧ keyOfCert c.name = k ∧ c.content = dictGet k s.store.keys ∧ CertAdded s s' k c
    | .error _ => s' = s ∧ ¬ (checkCert c = .ok () ∧ keyOfCert c.name = k ∧ c.content = dictGet k s.store.keys) := by
  obtain ⟨key, hkey, hf⟩ := hs.live hk
  unfold addCertificate
  refine After.of_run (by rw [keyImpl_some hkey, hf.name]) ?_
  cases hc : (k.equals (keyOfCert c.name) && c.content == some key.bits) with
  | false =>
    refine ⟨hs, Ext.refl s, rfl, rfl, ?_⟩
    rintro ⟨_, h1, h2⟩
    rw [h1, equals_iff.2 rfl, h2, hf.bits, beq_iff_eq.2 rfl] at hc
    nomatch hc
  | true =>
    have hcc := beq_iff_eq.1 (Bool.and_eq_true _ _ ▸ hc).2
    have hkc := (equals_iff.1 (Bool.and_eq_true _ _ ▸ hc).1).symm
    refine After.of_run (check_true _ rfl _ _) ((certAdd_spec hs hk (c := c) (fun _ => by rw [hf.bits]; exact hcc) hst).mono ?_)
    rintro x s1 ⟨g1, g2, g3, g4⟩
    cases x with
    | error e => exact ⟨g1, g2, g3, g4.1, fun hh => g4.2 ⟨hh.1, hh.2.1⟩⟩
    | ok u =>
      obtain ⟨d0, _, d1, d2, d3, d4, d5, d6⟩ := g4
      exact ⟨g1, g2, g3, d0, hkc, by rw [hf.bits]; exact hcc, ⟨d1, d2, d3, d4, d5, d6⟩⟩

theorem setDefaultCertificate_spec (hs : Coh P strict s) {k : Name} {r : Nat} (hk : LiveKey s k r) {c : Data}
    (hst : strict = true → ∀ d, dictGet c.name s.store.certs = some d → d = c) :
    After (setDefaultCertificate r c) s fun x s' => Coh P strict s' ∧ Ext s s' ∧ s'.tpm = s.tpm ∧
    match x with
    | .ok _ => checkCert c = .ok () ∧ keyOfCert c.name = k ∧ c.content = dictGet k s.store.keys ∧ dictGet k s'.store.defaultCerts = some c.name ∧ dictGet c.name s'.store.certs = some c
    | .error _ => s' = s ∧ ¬ (checkCert c = .ok () ∧ keyOfCert c.name = k ∧ c.content = dictGet k s.store.keys) := by
  unfold setDefaultCertificate
  refine After.bind ((addCertificate_spec hs hk hst).mono ?_)
  rintro x s1 ⟨g1, g2, g3, g4⟩
  cases x with
  | error e => exact ⟨g1, g2, g3, g4⟩
  | ok u =>
    obtain ⟨d0, d1, dc, d2⟩ := g4
    refine After.bind ((keySetDefaultCertificate_spec g1 (g2.key _ _ hk) c.name).mono ?_)
    rintro x s2 ⟨f1, f2, f3, f4⟩
    have hcs : dictGet c.name s1.store.certs = some c := by rw [d2.certs, if_pos rfl]
    cases x with
    | error e =>
      rcases f4.2 with ⟨h, _⟩ | ⟨_, h⟩
      · exact absurd ⟨(checkCert_content d0).1, d1⟩ h
      · rw [hcs] at h; nomatch h
    | ok d =>
      refine ⟨f1, g2.trans f2, f3.trans g3, d0, d1, dc, ?_, ?_⟩
      · show dictGet k s2.store.defaultCerts = _
        rw [f4.2.2]
        show dictGet k (dictSet k c.name _) = _
        rw [get_set, if_pos rfl]
      · show dictGet c.name s2.store.certs = _
        rw [f4.2.2]
        exact hcs

theorem coh_out {α : Type} {m : K α} {f : α → Out} (h : Coh P strict (m s).2) : Coh P strict (K.out m f s).2 := by
  unfold K.out
  rw [bind_run]
  cases hm : m s with
  | mk r s' => rw [hm] at h; cases r <;> exact h

theorem After.fst {σ α : Type} {m : M σ α} {s : σ} {p : σ → Prop} {Q : Except KErr α → σ → Prop} (h : After m s fun r s' => p s' ∧ Q r s') : p (m s).2 := h.1

theorem coh_perform (S : Sound P) (hs : Coh P strict s) : ∀ op, Proper strict P s op → Coh P strict (perform P op s).2
  | .createIdentity n g, h => coh_out (createIdentity_spec S hs n g h).1
  | .getIdentity n, _ => coh_out (getIdentity_spec hs n).1
  | .getDefaultIdentity, _ => coh_out (getDefaultIdentity_spec hs).1
  | .setDefaultIdentity h, ⟨n, hl⟩ => coh_out (by
      obtain ⟨i, hi, hin, _⟩ := hs.id n h hl
      unfold setDefaultIdentity
      rw [idImpl_some hi, hin]
      obtain ⟨s', e, h1, _⟩ := pibSetDefaultIdentity_spec hs hl
      rw [e]; exact h1)
  | .deleteIdentity h, ⟨n, hl⟩ => coh_out (by
      obtain ⟨s', e, h1, _⟩ := deleteIdentity_spec hs hl
      rw [e]; exact h1)
  | .deleteIdentityByName n, _ => coh_out (by
      refine After.fst (m := deleteIdentityByName n) (Q := fun _ _ => True) ?_
      unfold deleteIdentityByName
      refine After.exceptAny (After.bind ((getIdentity_spec hs n).mono ?_))
      rintro x s1 ⟨g1, g2, g3⟩
      cases x with
      | error e => exact ⟨g1, trivial⟩
      | ok h =>
        obtain ⟨s', e, h1, _⟩ := deleteIdentity_spec g1 g3.1
        exact After.of_eq e ⟨h1, trivial⟩)
  | .createKey h g, ⟨n, hl, hg⟩ => coh_out (createKey_spec S hs hl g hg).1
  | .getKey h k, ⟨n, hl⟩ => coh_out (keyGet_spec S hs hl k).1
  | .getDefaultKey h, ⟨n, hl⟩ => coh_out (idGetDefaultKey_spec S hs hl).1
  | .setDefaultKey h r, ⟨⟨n, hl⟩, k, hk⟩ => coh_out (setDefaultKey_spec S hs hl hk).1
  | .deleteKey h r, ⟨⟨n, hl⟩, k, hk, hst⟩ => coh_out (deleteKey_spec hs hl hk hst).1
  | .addCertificate r c, ⟨⟨k, hk⟩, hst⟩ => coh_out (addCertificate_spec hs hk hst).1
  | .getCertificate r c, ⟨k, hk⟩ => coh_out (certGet_spec hs hk c).1
  | .getDefaultCertificate r, ⟨k, hk⟩ => coh_out (keyGetDefaultCertificate_spec hs hk).1
  | .setDefaultCertificate r c, ⟨⟨k, hk⟩, hst⟩ => coh_out (setDefaultCertificate_spec hs hk hst).1
  | .deleteCertificate r c, ⟨k, hk⟩ => coh_out (by
      unfold deleteCertificate
      refine After.fst (Q := fun _ _ => True) (After.bind ?_)
      cases isCertName c with
      | false => exact ⟨hs, trivial⟩
      | true => exact ⟨(keyRemoveCertificate_spec hs hk c).1, trivial⟩)
  | .selfSign r now random, ⟨k, hk, hst⟩ => coh_out (selfSign_spec S hs hk now random hst).1
  | .sign d info random, h => coh_out (signData_spec S hs d info random h).1
  | .signInterest i info random nonce, h => coh_out (signInterest_spec S hs i info random nonce h).1
  | .importSafeBag c bag pw random, h => coh_out (importSafeBag_spec S hs c bag pw random h).1
  | .setTpmLocator l, _ => coh_setTpmLocator hs l
  | .restart, _ => coh_restart hs

theorem run_snoc (P : Params) (ops : List Op) (op : Op) : run P (ops ++ [op]) = (perform P op (run P ops)).2 := by
  unfold run
  rw [List.foldl_append]
  rfl

theorem coh_run (S : Sound P) (ops : List Op) (h : Disciplined strict P ops) : Coh P strict (run P ops) := by
  suffices ∀ (n : Nat) (ops : List Op), ops.length = n → Disciplined strict P ops → Coh P strict (run P ops) from this _ ops rfl h
  intro n
  induction n with
  | zero =>
    intro ops hn _
    rw [List.length_eq_zero_iff.1 hn]
    exact coh_empty
  | succ n ih =>
    intro ops hn hd
    have hne : ops ≠ [] := fun h => by rw [h] at hn; nomatch hn
    have e := List.dropLast_concat_getLast hne
    generalize ops.getLast hne = op at e
    generalize hl : ops.dropLast = l at e
    subst e
    rw [run_snoc]
    refine coh_perform S (ih l ?_ ?_) op (hd l op [] rfl)
    · simpa using hn
    · intro a o b hab
      exact hd a o (b ++ [op]) (by rw [hab]; simp)

end KeyChain
end PyNDN
