import Verif.Props.KeyChain
import Verif.Props.KeySign
/-
C64: what the calls of a KeyChain do, and C66: what is deleted is gone, and what is exported can be imported.
-/
namespace PyNDN
namespace KeyChain
open PSync (dictGet dictSet dictDel dictGet_none dictGet_some)
open Spec
open Spec.KeyChain

variable {P : Params} {strict : Bool} {s : KC}

theorem keyIn_ok {st : Store} (hc : Consistent st) {k : Name} {bits : Bytes} (hb : dictGet k st.keys = some bits) : keyIn st (identityOfKey k) k = .ok bits := by
  obtain ⟨h1, h2⟩ := hc.key k bits hb
  unfold keyIn
  rw [if_neg (not_not_intro h2), if_neg (not_not_intro ⟨h1, rfl⟩), hb]

theorem keyIn_none {st : Store} {n k : Name} (hb : dictGet k st.keys = none) : ∃ e, keyIn st n k = .error e := by
  unfold keyIn
  split
  · exact ⟨_, rfl⟩
  · split
    · exact ⟨_, rfl⟩
    · rw [hb]; exact ⟨_, rfl⟩

theorem answer_identity {st : Store} {n : Name} (h : n ∈ st.identities) : answer st (.identity n) = .ok (.identity n) := if_pos h

theorem answer_key {st : Store} (hc : Consistent st) {n k : Name} (hn : identityOfKey k = n) {bits : Bytes} (hb : dictGet k st.keys = some bits) :
    answer st (.key n k) = .ok (.key k bits) := by
  unfold answer
  dsimp only
  rw [← hn, keyIn_ok hc hb]
  rfl

theorem answer_defaultKey {st : Store} (hc : Consistent st) {n k : Name} (hn : n ∈ st.identities) (hd : dictGet n st.defaultKeys = some k) {bits : Bytes} (hb : dictGet k st.keys = some bits) :
    answer st (.defaultKey n) = .ok (.key k bits) := by
  unfold answer
  dsimp only
  obtain ⟨_, h2⟩ := hc.defaultKey n k hd
  rw [if_neg (not_not_intro hn), hd]
  dsimp only
  rw [← h2, keyIn_ok hc hb]
  rfl

theorem answer_cert {st : Store} (hc : Consistent st) {n k c : Name} (hn : identityOfKey k = n) (hk : keyOfCert c = k) {d : Data} (hd : dictGet c st.certs = some d) :
    answer st (.cert n k c) = .ok (.cert d) := by
  obtain ⟨h1, ⟨b, h2⟩, _⟩ := hc.cert c d hd
  rw [hk] at h2
  unfold answer
  dsimp only
  rw [← hn, keyIn_ok hc h2]
  show (if ¬ (isCertName c = true ∧ keyOfCert c = k) then _ else _) = _
  rw [if_neg (not_not_intro ⟨h1, hk⟩), hd]

theorem answer_defaultCert {st : Store} (hc : Consistent st) {n k c : Name} (hn : identityOfKey k = n) (hk : dictGet k st.defaultCerts = some c) {d : Data} (hd : dictGet c st.certs = some d) :
    answer st (.defaultCert n k) = .ok (.cert d) := by
  obtain ⟨_, h0⟩ := hc.defaultCert k c hk
  obtain ⟨h1, ⟨b, h2⟩, _⟩ := hc.cert c d hd
  rw [h0] at h2
  unfold answer
  dsimp only
  rw [← hn, keyIn_ok hc h2]
  show (match (dictGet k st.defaultCerts).bind (dictGet · st.certs) with | none => _ | some d => _) = _
  rw [hk]
  show (match dictGet c st.certs with | none => _ | some d => _) = _
  rw [hd]

theorem ask_run (S : Sound P) {ops : List Op} (h : Disciplined strict P ops) (q : Query) (hq : strict = true ∨ ¬ q.aboutDefault) :
    (ask P q (run P ops)).1 = answer (run P ops).store q := (C64_answers P S ops q strict h hq).1

/-! ### C64: the calls -/

/-- C64: after `createIdentityV2` the identity is there, with a default key and a default certificate of this key.  It is the default
identity if there was none.  If it had a default key, nothing is changed. -/
theorem C64_create_identity (P : Params) (S : Sound P) (ops : List Op) (n : Name) (g : Gen) (h : Disciplined true P (ops ++ [.createIdentity n g])) {i : Nat}
    (ho : (perform P (.createIdentity n g) (run P ops)).1 = .ok (.identity i)) :
    let s := run P ops
    let s' := run P (ops ++ [.createIdentity n g])
    LiveId s' n i ∧ (ask P (.identity n) s').1 = .ok (.identity n) ∧
    (∃ k bits d, (ask P (.defaultKey n) s').1 = .ok (.key k bits) ∧ (ask P (.defaultCert n k) s').1 = .ok (.cert d) ∧ d.content = some bits) ∧
    (n ∉ s.store.identities → (ask P .defaultIdentity s').1 = .ok (.identity (s.store.defaultIdentity.getD n))) ∧
    (dictGet n s.store.defaultKeys ≠ none → s'.store = s.store ∧ s'.tpm = s.tpm) := by
  obtain ⟨hd, hp⟩ := disciplined_snoc h
  have hs := coh_run S ops hd
  obtain ⟨x, hx, e, hst⟩ := out_data ho
  cases e
  obtain ⟨h1, _, h2, h3⟩ := (createIdentity_spec S hs n g hp).ok hx
  have hrun : run P (ops ++ [.createIdentity n g]) = (createIdentity P n g (run P ops)).2 := (run_snoc P ops _).trans hst
  rw [← hrun] at h1 h2 h3
  have hq : ∀ q, (ask P q (run P (ops ++ [.createIdentity n g]))).1 = answer (run P (ops ++ [.createIdentity n g])).store q := fun q => ask_run S h q (Or.inl rfl)
  obtain ⟨k, c, d, q1, q2, q3, q4, q5⟩ := h3.key
  refine ⟨h2, ?_, ?_, fun hn => ?_, h3.old⟩
  · rw [hq]; exact answer_identity h3.identity
  · cases hb : dictGet k (run P (ops ++ [.createIdentity n g])).store.keys with
    | none => exact absurd hb q3
    | some bits =>
      refine ⟨k, bits, d, ?_, ?_, ?_⟩
      · rw [hq]; exact answer_defaultKey h1.cons h3.identity (q1 rfl) hb
      · rw [hq]; exact answer_defaultCert h1.cons q2 q4 q5
      · rw [← h1.content c d q5, (h1.cons.defaultCert k c q4).2]; exact hb
  · rw [hq]
    unfold answer
    dsimp only
    rw [h3.default hn]

theorem exCreatable : Creatable exP (run exP exOps) exA (exGen 4) := by
  refine ⟨fun h => (nomatch h), fun h => (nomatch h), ?_, ⟨_, rfl⟩, ?_, ?_, ?_⟩
  · intro c hc
    rw [List.mem_singleton.1 hc]
    trivial
  · intro nb na h
    have e : selfPeriod (exGen 4).now = some (1000, 630720001000) := by decide +kernel
    rw [e] at h
    cases h
    exact ⟨⟨by decide, by decide, by decide⟩, by decide, by decide, by decide⟩
  · trivial
  · decide +kernel

/-- C64: `createIdentityV2` returns if a key can be made, or if there is a default key with a default certificate already. -/
theorem C64_create_identity_returns (P : Params) (S : Sound P) (ops : List Op) (n : Name) (g : Gen) (h : Disciplined true P (ops ++ [.createIdentity n g]))
    (hc : dictGet n (run P ops).store.defaultKeys = none ∧ Creatable P (run P ops) n g ∨
      ∃ k, dictGet n (run P ops).store.defaultKeys = some k ∧ dictGet k (run P ops).store.defaultCerts ≠ none) :
    ∃ i, (perform P (.createIdentity n g) (run P ops)).1 = .ok (.identity i) := by
  obtain ⟨hd, hp⟩ := disciplined_snoc h
  have hs := coh_run S ops hd
  have hspec := createIdentity_spec S hs n g hp
  unfold After at hspec
  cases hx : (createIdentity P n g (run P ops)).1 with
  | ok i => exact ⟨i, (out_ok hx).1⟩
  | error e =>
    rw [hx] at hspec
    obtain ⟨_, _, ⟨h1, h2⟩ | ⟨k, _, _, h3, h4⟩⟩ := hspec
    · rcases hc with ⟨_, hc⟩ | ⟨k, hc, _⟩
      · exact absurd hc h2
      · rw [h1] at hc; nomatch hc
    · rcases hc with ⟨hc, _⟩ | ⟨k', hc, hc2⟩
      · rw [h3 rfl] at hc; nomatch hc
      · rw [h3 rfl] at hc
        cases hc
        exact absurd h4 hc2

/-- The hypotheses of both hold for the last call of the history `exOps`. -/
example : ∃ i, (perform exP (.createIdentity exB (exGen 3)) (run exP [.createIdentity exA (exGen 1), .createKey 0 (exGen 2)])).1 = .ok (.identity i) ∧
    Disciplined true exP ([.createIdentity exA (exGen 1), .createKey 0 (exGen 2)] ++ [.createIdentity exB (exGen 3)]) :=
  ⟨1, by decide +kernel, exDisciplined⟩

/-- C64: `createKey` makes a key of the identity that was not there, with a certificate, and with the private key in the TPM; it is the
default key if there was none; other keys stay as they are.  It returns if a key can be made. -/
theorem C64_create_key (P : Params) (S : Sound P) (strict : Bool) (ops : List Op) (n : Name) (i : Nat) (g : Gen) (h : Disciplined strict P (ops ++ [.createKey i g]))
    (hl : LiveId (run P ops) n i) :
    let s := run P ops
    let s' := run P (ops ++ [.createKey i g])
    (Creatable P s n g → ∃ r, (perform P (.createKey i g) s).1 = .ok (.key r)) ∧
    ∀ r, (perform P (.createKey i g) s).1 = .ok (.key r) →
      ∃ k, LiveKey s' k r ∧ (∃ id, k = constructKeyName n id ∧ ∀ c, g.id = .user c → id = c) ∧
        dictGet k s.store.keys = none ∧ dictGet k s.tpm = none ∧ (ask P (.key n k) s').1 = .ok (.key k (P.publicKey g.private_)) ∧
        dictGet k s'.tpm = some g.private_ ∧
        (strict = true → ∃ d, (ask P (.defaultCert n k) s').1 = .ok (.cert d) ∧ d.content = some (P.publicKey g.private_)) ∧
        dictGet n s'.store.defaultKeys = some ((dictGet n s.store.defaultKeys).getD k) ∧
        ∀ k', k' ≠ k → dictGet k' s'.store.keys = dictGet k' s.store.keys ∧ dictGet k' s'.tpm = dictGet k' s.tpm := by
  obtain ⟨hd, n', hl', hg⟩ := disciplined_snoc h
  have hs := coh_run S ops hd
  have hnn : n' = n := by
    obtain ⟨x, hx, hxn, _⟩ := hs.id _ _ hl
    obtain ⟨y, hy, hyn, _⟩ := hs.id _ _ hl'
    rw [hx] at hy
    cases hy
    exact hyn.symm.trans hxn
  subst hnn
  have hspec := createKey_spec S hs hl g hg
  refine ⟨fun hc => ?_, fun r ho => ?_⟩
  · unfold After at hspec
    cases hx : (createKey P i g (run P ops)).1 with
    | ok r => exact ⟨r, (out_ok hx).1⟩
    | error e =>
      rw [hx] at hspec
      exact absurd hc hspec.2.2
  · obtain ⟨x, hx, e, hst⟩ := out_data ho
    cases e
    obtain ⟨h1, _, k, h2, h3⟩ := hspec.ok hx
    have hrun : run P (ops ++ [.createKey i g]) = (createKey P i g (run P ops)).2 := (run_snoc P ops _).trans hst
    rw [← hrun] at h1 h2 h3
    obtain ⟨id, hid, hu⟩ := h3.name
    have hidk : identityOfKey k = n' := by rw [hid]; exact identityOfKey_construct n' id
    have hb : dictGet k (run P (ops ++ [.createKey i g])).store.keys = some (P.publicKey g.private_) := by rw [h3.keys, if_pos rfl]
    obtain ⟨v, d, _, c2, c3, c4⟩ := h3.cert
    refine ⟨k, h2, ⟨id, hid, hu⟩, h3.new.2, h3.new.1, ?_, ?_, ?_, h3.defaultKey, fun k' hk' => ⟨?_, ?_⟩⟩
    · rw [ask_run S h (.key n' k) (Or.inr fun hh => hh)]; exact answer_key h1.cons hidk hb
    · rw [h3.tpm, get_set, if_pos rfl]
    · intro hst
      refine ⟨d, ?_, c4⟩
      rw [ask_run S h _ (Or.inl hst)]
      exact answer_defaultCert h1.cons hidk c2 c3
    · rw [h3.keys, if_neg hk']
    · rw [h3.tpm, get_set, if_neg hk']

/-- A further key in the history `exOps`. -/
example : ∃ r, (perform exP (.createKey 0 (exGen 4)) (run exP exOps)).1 = .ok (.key r) :=
  (C64_create_key exP exSound true exOps exA 0 (exGen 4) (disciplined_add exDisciplined ⟨exA, exLiveA, fun h => nomatch h⟩) exLiveA).1 exCreatable

/-- C64: `setDefaultIdentity` sets the default identity and changes nothing else. -/
theorem C64_set_default_identity (P : Params) (S : Sound P) (strict : Bool) (ops : List Op) (n : Name) (i : Nat) (h : Disciplined strict P (ops ++ [.setDefaultIdentity i]))
    (hl : LiveId (run P ops) n i) :
    let s := run P ops
    let s' := run P (ops ++ [.setDefaultIdentity i])
    (perform P (.setDefaultIdentity i) s).1 = .ok .none ∧ (ask P .defaultIdentity s').1 = .ok (.identity n) ∧ s'.tpm = s.tpm ∧
    s'.store = { s.store with defaultIdentity := some n } := by
  obtain ⟨hd, _⟩ := disciplined_snoc h
  have hs := coh_run S ops hd
  obtain ⟨x, hi, hin, hmem⟩ := hs.id _ _ hl
  obtain ⟨s', e, _, _, h3, h4⟩ := pibSetDefaultIdentity_spec hs hl
  have e' : setDefaultIdentity i (run P ops) = (.ok (), s') := by
    unfold setDefaultIdentity
    rw [idImpl_some hi, hin]
    exact e
  have hrun : run P (ops ++ [.setDefaultIdentity i]) = s' := by
    rw [run_snoc]
    refine ((out_ok (f := fun _ => Out.none) (a := ()) (by rw [e'])).2).trans ?_
    rw [e']
  have hstore : s'.store = { (run P ops).store with defaultIdentity := some n } := by
    rw [h4]
    unfold Store.setDefaultIdentity Store.addIdentity
    rw [modify_bind]
    unfold modify
    dsimp only
    rw [if_pos hmem]
  refine ⟨(out_ok (f := fun _ => Out.none) (a := ()) (by rw [e'])).1, ?_, ?_, ?_⟩
  · rw [ask_run S h .defaultIdentity (Or.inr fun hh => hh), hrun, hstore]
    rfl
  · rw [hrun]; exact h3
  · rw [hrun]; exact hstore

example : (perform exP (.setDefaultIdentity 1) (run exP exOps)).1 = .ok .none ∧ (run exP exOps).store.defaultIdentity ≠ some exB :=
  ⟨(C64_set_default_identity exP exSound true exOps exB 1 (disciplined_add exDisciplined ⟨exB, exLiveB⟩) exLiveB).1, by decide +kernel⟩

/-- C64: `setDefaultKey` sets the default key and changes nothing else; it raises if the key is not of the identity. -/
theorem C64_set_default_key (P : Params) (S : Sound P) (ops : List Op) (n k : Name) (i r : Nat) (h : Disciplined true P (ops ++ [.setDefaultKey i r]))
    (hl : LiveId (run P ops) n i) (hk : LiveKey (run P ops) k r) :
    let s := run P ops
    let s' := run P (ops ++ [.setDefaultKey i r])
    ((perform P (.setDefaultKey i r) s).1 = .ok .none ↔ identityOfKey k = n) ∧ s'.tpm = s.tpm ∧
    (identityOfKey k = n → (∃ bits, (ask P (.defaultKey n) s').1 = .ok (.key k bits)) ∧ s'.store = { s.store with defaultKeys := dictSet n k s.store.defaultKeys }) ∧
    (identityOfKey k ≠ n → s' = s) := by
  obtain ⟨hd, _⟩ := disciplined_snoc h
  have hs := coh_run S ops hd
  have hspec := setDefaultKey_spec S hs hl hk
  unfold After at hspec
  obtain ⟨h1, h2, h3, h4⟩ := hspec
  have hmem : n ∈ (run P ops).store.identities := by obtain ⟨_, _, _, hm⟩ := hs.id _ _ hl; exact hm
  obtain ⟨key, _, hf⟩ := hs.live hk
  cases hx : (setDefaultKey P i r (run P ops)).1 with
  | ok u =>
    rw [hx] at h4
    obtain ⟨h5, h6⟩ := h4
    have hrun : run P (ops ++ [.setDefaultKey i r]) = (setDefaultKey P i r (run P ops)).2 := by
      rw [run_snoc]; exact (out_ok (f := fun _ => Out.none) hx).2
    refine ⟨⟨fun _ => h5, fun _ => (out_ok (f := fun _ => Out.none) hx).1⟩, by rw [hrun]; exact h3, fun _ => ⟨⟨key.bits, ?_⟩, by rw [hrun]; exact h6⟩, fun hh => absurd h5 hh⟩
    rw [ask_run S h _ (Or.inl rfl), hrun]
    refine answer_defaultKey h1.cons ?_ ?_ ?_
    · rw [h6]; exact hmem
    · rw [h6]
      show dictGet n (dictSet n k _) = _
      rw [get_set, if_pos rfl]
    · rw [h6]; exact hf.bits
  | error e =>
    rw [hx] at h4
    obtain ⟨h5, h6⟩ := h4
    have hrun : run P (ops ++ [.setDefaultKey i r]) = run P ops := by
      rw [run_snoc]
      show (K.out (setDefaultKey P i r) (fun _ => Out.none) (run P ops)).2 = _
      unfold K.out
      rw [bind_run]
      cases hm : setDefaultKey P i r (run P ops) with
      | mk a b =>
        rw [hm] at hx h6
        cases hx
        exact h6
    refine ⟨⟨fun hh => ?_, fun hh => absurd hh h5⟩, by rw [hrun], fun hh => absurd hh h5, fun _ => hrun⟩
    obtain ⟨a, ha, _⟩ := out_data hh
    rw [hx] at ha
    nomatch ha

/-- The second key of the history `exOps`. -/
theorem exLiveKey2 : LiveKey (run exP exOps) (constructKeyName exA (exK 2)) 1 :=
  ⟨exA, 0, _, exLiveA, (by decide +kernel : (run exP exOps).ids[0]? = some ((run exP exOps).ids[0]?.getD { name := [] })), by decide +kernel⟩

example : (perform exP (.setDefaultKey 0 1) (run exP exOps)).1 = .ok .none ∧ dictGet exA (run exP exOps).store.defaultKeys ≠ some (constructKeyName exA (exK 2)) :=
  ⟨(C64_set_default_key exP exSound exOps exA (constructKeyName exA (exK 2)) 0 1 (disciplined_add exDisciplined ⟨⟨exA, exLiveA⟩, _, exLiveKey2⟩) exLiveA exLiveKey2).1.2 (by decide +kernel), by decide +kernel⟩

/-- C64: `addCertificate` and `setDefaultCertificate` return if the certificate has the form of a certificate, the name of the key and its
public key; then it is in the PIB, and it is the default certificate after `setDefaultCertificate`, and after `addCertificate` if there was
none.  Otherwise nothing is changed. -/
theorem C64_add_certificate (P : Params) (S : Sound P) (ops : List Op) (k : Name) (r : Nat) (c : Data) (default : Bool)
    (h : Disciplined true P (ops ++ [if default then .setDefaultCertificate r c else .addCertificate r c])) (hk : LiveKey (run P ops) k r) :
    let op : Op := if default then .setDefaultCertificate r c else .addCertificate r c
    let s := run P ops
    let s' := run P (ops ++ [op])
    ((perform P op s).1 = .ok .none ↔ checkCert c = .ok () ∧ keyOfCert c.name = k ∧ c.content = dictGet k s.store.keys) ∧
    ((perform P op s).1 ≠ .ok .none → s' = s) ∧
    ((perform P op s).1 = .ok .none → (ask P (.cert (identityOfKey k) k c.name) s').1 = .ok (.cert c) ∧
      ((default = true ∨ dictGet k s.store.defaultCerts = none) → (ask P (.defaultCert (identityOfKey k) k) s').1 = .ok (.cert c))) := by
  obtain ⟨hd, hp⟩ := disciplined_snoc h
  have hs := coh_run S ops hd
  have hst : true = true → ∀ d, dictGet c.name (run P ops).store.certs = some d → d = c := by
    cases default <;> exact hp.2
  let op : Op := if default then .setDefaultCertificate r c else .addCertificate r c
  -- what both calls do
  have key : ∀ (m : K Unit), (∀ s, perform P op s = K.out m (fun _ => .none) s) →
      After m (run P ops) (fun x s' => Coh P true s' ∧ match x with
        | .ok _ => (checkCert c = .ok () ∧ keyOfCert c.name = k ∧ c.content = dictGet k (run P ops).store.keys) ∧ dictGet c.name s'.store.certs = some c ∧
            ((default = true ∨ dictGet k (run P ops).store.defaultCerts = none) → dictGet k s'.store.defaultCerts = some c.name)
        | .error _ => s' = run P ops ∧ ¬ (checkCert c = .ok () ∧ keyOfCert c.name = k ∧ c.content = dictGet k (run P ops).store.keys)) →
      ((perform P op (run P ops)).1 = .ok .none ↔ checkCert c = .ok () ∧ keyOfCert c.name = k ∧ c.content = dictGet k (run P ops).store.keys) ∧
      ((perform P op (run P ops)).1 ≠ .ok .none → run P (ops ++ [op]) = run P ops) ∧
      ((perform P op (run P ops)).1 = .ok .none → (ask P (.cert (identityOfKey k) k c.name) (run P (ops ++ [op]))).1 = .ok (.cert c) ∧
        ((default = true ∨ dictGet k (run P ops).store.defaultCerts = none) → (ask P (.defaultCert (identityOfKey k) k) (run P (ops ++ [op]))).1 = .ok (.cert c))) := fun m hm hspec => by
    unfold After at hspec
    obtain ⟨h1, h2⟩ := hspec
    have hrun : run P (ops ++ [op]) = (m (run P ops)).2 := by
      rw [run_snoc, hm]
      unfold K.out
      rw [bind_run]
      cases m (run P ops) with
      | mk a b => cases a <;> rfl
    rw [hm]
    cases hx : (m (run P ops)).1 with
    | ok u =>
      rw [hx] at h2
      obtain ⟨h3, h4, h5⟩ := h2
      have ho := (out_ok (f := fun _ => Out.none) hx).1
      refine ⟨⟨fun _ => h3, fun _ => ho⟩, fun hh => absurd ho hh, fun _ => ⟨?_, fun hh => ?_⟩⟩
      · rw [ask_run S h _ (Or.inl rfl), hrun]
        exact answer_cert h1.cons rfl h3.2.1 h4
      · rw [ask_run S h _ (Or.inl rfl), hrun]
        exact answer_defaultCert h1.cons rfl (h5 hh) h4
    | error e =>
      rw [hx] at h2
      have ho : (K.out m (fun _ => Out.none) (run P ops)).1 ≠ .ok .none := fun hh => by
        obtain ⟨a, ha, _⟩ := out_data hh
        rw [hx] at ha
        nomatch ha
      exact ⟨⟨fun hh => absurd hh ho, fun hh => absurd hh h2.2⟩, fun _ => hrun.trans h2.1, fun hh => absurd hh ho⟩
  cases default with
  | false =>
    refine key (addCertificate r c) (fun _ => rfl) ((addCertificate_spec hs hk hst).mono ?_)
    rintro x s1 ⟨g1, g2, g3, g4⟩
    refine ⟨g1, ?_⟩
    cases x with
    | error e => exact g4
    | ok u =>
      obtain ⟨a1, a2, a3, a4⟩ := g4
      refine ⟨⟨a1, a2, a3⟩, by rw [a4.certs, if_pos rfl], fun hh => ?_⟩
      rw [a4.defaultCerts, if_pos ⟨rfl, hh.resolve_left fun h => nomatch h⟩]
  | true =>
    refine key (setDefaultCertificate r c) (fun _ => rfl) ((setDefaultCertificate_spec hs hk hst).mono ?_)
    rintro x s1 ⟨g1, g2, g3, g4⟩
    refine ⟨g1, ?_⟩
    cases x with
    | error e => exact g4
    | ok u =>
      obtain ⟨a1, a2, a3, a4, a5⟩ := g4
      exact ⟨⟨a1, a2, a3⟩, a5, fun _ => a4⟩

/-- A certificate of the first key, by the issuer 9. -/
def exCert : Data :=
  { name := exKey ++ [Component.generic [9], Component.generic [1]], metaInfo := { type := 2, freshnessPeriod := some 3600000 }, content := some [1, 1]
    signature := { info := .rsa { type := some 1, keyName := exB } (some (0, 1000)), signature := some [1] } }

theorem exCertNew : dictGet exCert.name (run exP exOps).store.certs = none := by decide +kernel

theorem exAddCert : Disciplined true exP (exOps ++ [.setDefaultCertificate 0 exCert]) :=
  disciplined_add exDisciplined ⟨⟨_, exLiveKey⟩, fun _ d hd => by rw [exCertNew] at hd; nomatch hd⟩

example : (perform exP (.setDefaultCertificate 0 exCert) (run exP exOps)).1 = .ok .none :=
  (C64_add_certificate exP exSound exOps exKey 0 exCert true exAddCert exLiveKey).1.2 (by decide +kernel)

/-- C65: `selfSign` returns if the certificate can be encoded.  It is a certificate of the key, with its public key, it is in the PIB, and who
receives it can verify it with itself. -/
theorem C65_self_signed (P : Params) (S : Sound P) (strict : Bool) (ops : List Op) (k : Name) (r : Nat) (now : Int) (random : Nat)
    (h : Disciplined strict P (ops ++ [.selfSign r now random])) (hk : LiveKey (run P ops) k r) (hkc : CanonicalName k) (hv : ValidityOk (selfPeriod now)) :
    ((∃ v, Component.fromVersion now = .ok v) → ∃ c, (perform P (.selfSign r now random) (run P ops)).1 = .ok (.cert c)) ∧
    ∀ c, (perform P (.selfSign r now random) (run P ops)).1 = .ok (.cert c) →
      (∃ v, Component.fromVersion now = .ok v ∧ c.name = selfCertName k v) ∧ checkCert c = .ok () ∧ c.content = dictGet k (run P ops).store.keys ∧
      (ask P (.cert (identityOfKey k) k c.name) (run P (ops ++ [.selfSign r now random]))).1 = .ok (.cert c) ∧
      ∃ wire b e, encodeData c = .ok (wire, b, e) ∧
        (wire.length < 2 ^ 64 → ∀ old extra, ∃ d bits, decodeData old (wire ++ extra) = .ok (d, b, e) ∧ SameData c d ∧ c.content = some bits ∧
          NamesKey P { validity := setPeriod now (now + 20 * 365 * 24 * 3600 * 1000) } k bits d.signature.info ∧
          ∀ (V : Validator.Cfg) (signed : Except Err Bytes), V.verify = P.verify →
            Validator.verifyData V { data := d, signed := .ok (slice wire b e) } { data := d, signed := signed } = .ok true) := by
  obtain ⟨hd, k0, hk0, hst⟩ := disciplined_snoc h
  have hs := coh_run S ops hd
  have hkk : k0 = k := by
    obtain ⟨x, hx, hf⟩ := hs.live hk
    obtain ⟨y, hy, hg⟩ := hs.live hk0
    rw [hx] at hy
    cases hy
    rw [← hf.name, hg.name]
  subst hkk
  have hspec := selfSign_spec S hs hk now random hst
  refine ⟨fun hver => ?_, fun c ho => ?_⟩
  · unfold After at hspec
    cases hx : (selfSign P r now random (run P ops)).1 with
    | ok c => exact ⟨c, (out_ok hx).1⟩
    | error e =>
      rw [hx] at hspec
      exact absurd ⟨hkc, hver, hv⟩ hspec.2.2.2.2
  · obtain ⟨x, hx, e, hstate⟩ := out_data ho
    cases e
    obtain ⟨g1, _, _, v, d0, h1, h2, h3, _, h5, h6, h7, h8⟩ := hspec.ok hx
    have hrun : run P (ops ++ [.selfSign r now random]) = (selfSign P r now random (run P ops)).2 := (run_snoc P ops _).trans hstate
    rw [← hrun] at g1 h8
    have hkey : keyOfCert c.name = k0 := by rw [h2]; exact keyOfCert_append _ _ _
    obtain ⟨key, _, hf, hvk, _⟩ := hs.stored hk
    obtain ⟨p, hp, hpb⟩ := hs.tpm _ _ hf.bits
    have hcc : c.content = some key.bits := by rw [h3]; exact hf.bits
    have hok : DataOk c := by
      refine ⟨?_, ?_, ?_⟩
      · rw [h2]
        intro x hxm
        rcases List.mem_append.1 hxm with hxm | hxm
        · exact hkc x hxm
        · rcases List.mem_cons.1 hxm with rfl | hxm
          · trivial
          · rw [List.mem_singleton.1 hxm]; exact fromVersion_canonical h1
      · rw [h6]; exact ⟨Or.inl (show 2 ≤ 3 by decide), fun f hf => by cases hf; decide, trivial, fun _ => rfl⟩
      · obtain ⟨k', hprep, _⟩ := h7.signed
        rcases hprep with ⟨p1, _, _⟩ | ⟨p', c1, _, _, c4⟩
        · exact p1.elim
        · have hk' : k' = k0 := by
            obtain ⟨x, hx, hf⟩ := hs.live hk
            obtain ⟨y, hy, hg⟩ := hs.live (show LiveKey (run P ops) k' r from c1)
            rw [hx] at hy
            cases hy
            rw [← hf.name, hg.name]
          subst hk'
          rcases c4 with ⟨_, e⟩ | ⟨_, e⟩ <;> rw [e] <;> exact ⟨Or.inr (Or.inl ⟨rfl, hkc⟩), hv⟩
    refine ⟨⟨v, h1, h2⟩, h5, h3, ?_, ?_⟩
    · have e2 : (ask P (.cert (identityOfKey k0) k0 c.name) (run P (ops ++ [.selfSign r now random]))).1 = answer (run P (ops ++ [.selfSign r now random])).store (.cert (identityOfKey k0) k0 c.name) :=
        ask_run S h (.cert (identityOfKey k0) k0 c.name) (Or.inr fun hh => hh)
      rw [e2]
      exact answer_cert g1.cons rfl hkey (by rw [h8.certs, if_pos rfl])
    · obtain ⟨wire, b, e, q1, q2⟩ := signed_received S hs h7 hok
      refine ⟨wire, b, e, q1, fun hsize old extra => ?_⟩
      obtain ⟨d, q3, q4, q5⟩ := q2 hsize old extra
      refine ⟨d, key.bits, q3, q4, hcc, ?_⟩
      rcases q5 with ⟨q5, _⟩ | ⟨k', bits, q5, q6, q7, q8⟩
      · exact q5.elim
      · have hk' : k' = k0 := by
          obtain ⟨x, hx, hf⟩ := hs.live hk
          obtain ⟨y, hy, hg⟩ := hs.live (show LiveKey (run P ops) k' r from q5)
          rw [hx] at hy
          cases hy
          rw [← hf.name, hg.name]
        subst hk'
        rw [hf.bits] at q6
        cases q6
        refine ⟨q7, fun V signed hV => q8 V _ hV ?_⟩
        show d.content = some key.bits
        refine some_of_getD ?_ (by rw [← hpb]; exact S.nonempty p)
        rw [← q4.2.2.1, hcc]
        rfl

example : ∃ c, (perform exP (.selfSign 0 5000 0) (run exP exOps)).1 = .ok (.cert c) := by
  refine (C65_self_signed exP exSound true exOps exKey 0 5000 0 (disciplined_add exDisciplined ⟨exKey, exLiveKey, fun _ v hv => ?_⟩) exLiveKey ?_ ?_).1 ⟨_, rfl⟩
  · have e : dictGet (selfCertName exKey ((Component.fromVersion 5000).toOption.getD ⟨.generic, []⟩)) (run exP exOps).store.certs = none := by decide +kernel
    rw [hv] at e
    exact e
  · intro c hc
    simp only [exKey, constructKeyName, exA, List.cons_append, List.nil_append, List.mem_cons, List.not_mem_nil, or_false] at hc
    rcases hc with rfl | rfl | rfl <;> trivial
  · intro nb na h
    have e : selfPeriod 5000 = some (5000, 630720005000) := by decide +kernel
    rw [e] at h
    cases h
    exact ⟨⟨by decide, by decide, by decide⟩, by decide, by decide, by decide⟩

end KeyChain
end PyNDN
