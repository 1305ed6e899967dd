import Verif.Lemmas.PibSqliteRep
import Verif.Lemmas.KeySigning
/-
C74: a PIB in SQLite behaves as a PIB of maps, also after restarts and crashes.
-/
namespace PyNDN.PibSqlite
open Spec (SameData)
open Spec.PibSqlite (NameOk CertOk Pib up upd next Gives Agree midway Fine Integrity Names Cert orError after)

/-! ### Methods -/

/-- The method returns, and it does what leads from one PIB to another, by way of the ones in the list. -/
def Does (m : M Unit) (K : Pib) (mids : List Pib) (K' : Pib) : Prop :=
  ∀ db log, Rep db K → ∃ db' l, m ⟨db, log⟩ = (.ok (), ⟨db', log ++ l⟩) ∧ Rep db' K' ∧ ∀ d ∈ l, ∃ K'' ∈ mids, Rep d K''

variable {K K' K'' : Pib} {mids mids' : List Pib}

theorem pure_then {α β : Type} (a : α) (f : α → M β) : ((Pure.pure a : M α) >>= f) = f a := rfl

theorem Does.pure : Does (pure ()) K mids K := fun db log h => ⟨db, [], by rw [List.append_nil]; rfl, h, fun _ h => (nomatch h)⟩

theorem Does.bind {m : M Unit} {f : Unit → M Unit} (h : Does m K mids K') (h' : Does (f ()) K' mids K'') : Does (m >>= f) K mids K'' := by
  intro db log hr
  obtain ⟨db1, l1, e1, r1, c1⟩ := h db log hr
  obtain ⟨db2, l2, e2, r2, c2⟩ := h' db1 (log ++ l1) r1
  refine ⟨db2, l1 ++ l2, ?_, r2, fun d hd => (List.mem_append.mp hd).elim (c1 d) (c2 d)⟩
  show M.bind m f ⟨db, log⟩ = _
  unfold M.bind
  rw [e1]
  dsimp only
  rw [e2, List.append_assoc]

theorem Does.mono {m : M Unit} (h : Does m K mids K') (hs : ∀ x ∈ mids, x ∈ mids') : Does m K mids' K' := by
  intro db log hr
  obtain ⟨db1, l1, e1, r1, c1⟩ := h db log hr
  exact ⟨db1, l1, e1, r1, fun d hd => by obtain ⟨x, hx, q⟩ := c1 d hd; exact ⟨x, hs x hx, q⟩⟩

theorem Does.select {α : Type} {f : DB → α} {a : α} {g : α → M Unit} (hf : ∀ db, Rep db K → f db = a) (h : Does (g a) K mids K') :
    Does (select f >>= g) K mids K' := by
  intro db log hr
  have := h db log hr
  rw [← hf db hr] at this
  exact this

theorem Does.write {q : Stmt} (h : ∀ db, Rep db K → ∃ db', exec db q = some db' ∧ Rep db' K') (hm : K' ∈ mids) : Does (write q) K mids K' := by
  intro db log hr
  obtain ⟨db', e, r⟩ := h db hr
  refine ⟨db', [db'], ?_, r, fun d hd => ⟨K', hm, by rw [List.mem_singleton.mp hd]; exact r⟩⟩
  simp only [PibSqlite.write, e]

/-! ### What the selects give -/

theorem sel_hasIdentity {db : DB} (h : Rep db K) {n : Name} (hn : NameOk n) : (db.identities.find (encodeName n)).isSome = K.identity n := by
  rw [h.ids.find hn]; unfold idVal; cases K.identity n <;> rfl

theorem sel_default {db : DB} (h : Rep db K) : (db.identities.find? (·.isDefault)).isSome = K.default.isSome := by
  have := h.ids.default (sel_identities h)
  have e : idDef K [] = K.default := rfl
  rw [e] at this
  split at this
  · rename_i q; rw [q, this]; rfl
  · rename_i q
    obtain ⟨m, _, _, _, hm⟩ := this
    rw [q, hm]; rfl

theorem sel_hasKey {db : DB} (h : Rep db K) {k : Name} (hk : NameOk k) : (db.keys.find (encodeName k)).isSome = (K.key k).isSome := h.keys.find hk

theorem sel_hasCert {db : DB} (h : Rep db K) {k : Name} (hk : NameOk k) : (db.certs.find (encodeName k)).isSome = (K.cert k).isSome :=
  h.certs.find hk

theorem sel_keysOf {db : DB} (h : Rep db K) {n : Name} (hn : NameOk n) : Sel (db.keysOf (encodeName n)) db.keys up n := sel_child h.ids h.keys hn

theorem sel_certsOf {db : DB} (h : Rep db K) {n : Name} (hn : NameOk n) : Sel (db.certsOf (encodeName n)) db.certs up n := sel_child h.keys h.certs hn

theorem isSome_default {β : Type} {G : Name → Nat → Prop} {group : Name → Name} {D : Bytes → β → Prop} {t : Table} {val : Name → Option β}
    {dflt : Name → Option Name} (h : TRep G group D t val dflt) {u : Table} {g : Name} (hu : Sel u t group g) :
    (u.find? (·.isDefault)).isSome = (dflt g).isSome := by
  have := h.default hu
  split at this
  · rename_i q; rw [q, this]; rfl
  · rename_i q
    obtain ⟨m, _, _, _, hm⟩ := this
    rw [q, hm]; rfl

/-! ### Methods that write -/

theorem upd_self {α β : Type} [DecidableEq α] (f : α → β) (a : α) : upd f a (f a) = f := by
  funext x; unfold upd; split
  · rename_i q; rw [q]
  · rfl

theorem upd_of {α β : Type} [DecidableEq α] {f : α → β} {a : α} {b : β} (h : f a = b) : upd f a b = f := by rw [← h, upd_self]

theorem addIdentity_self {n : Name} (h : K.identity n = true) (hd : K.default.isSome = true) : K.addIdentity n = K := by
  obtain ⟨m, hm⟩ := Option.isSome_iff_exists.mp hd
  unfold Pib.addIdentity
  rw [upd_of h]
  have e : (K.default <|> some n) = K.default := by rw [hm]; rfl
  rw [e]

theorem addIdentity_default {n : Name} (h : K.identity n = true) (hd : K.default = none) : K.addIdentity n = { K with default := some n } := by
  unfold Pib.addIdentity
  rw [upd_of h, hd]
  rfl

theorem does_setDefaultIdentity {n : Name} (hn : NameOk n) :
    Does (setDefaultIdentity n) K [K.addIdentity n, next K (.setDefaultIdentity n)] (next K (.setDefaultIdentity n)) := by
  unfold setDefaultIdentity hasIdentity
  refine Does.select (fun db h => sel_hasIdentity h hn) ?_
  cases hi : K.identity n with
  | false =>
    refine Does.bind (K' := K.addIdentity n) ?_ ?_
    · exact Does.write (fun db h => rep_insertIdentity h hn hi) (by simp)
    · have e : next K (.setDefaultIdentity n) = { K.addIdentity n with default := some n } := rfl
      rw [e]
      exact Does.write (fun db h => rep_defaultIdentity h (by simp [Pib.addIdentity, upd])) (by simp)
  | true =>
    show Does _ K _ _
    have e : next K (.setDefaultIdentity n) = { K with default := some n } := by
      simp only [next]; rw [upd_of hi]
    rw [e]
    exact Does.write (fun db h => rep_defaultIdentity h hi) (by simp)

theorem does_addIdentity {n : Name} (hn : NameOk n) : Does (addIdentity n) K [K.addIdentity n] (K.addIdentity n) := by
  unfold addIdentity hasIdentity hasDefaultIdentity
  refine Does.select (fun db h => sel_hasIdentity h hn) ?_
  cases hi : K.identity n with
  | false =>
    refine Does.bind (K' := K.addIdentity n) (Does.write (fun db h => rep_insertIdentity h hn hi) (by simp)) ?_
    refine Does.select (a := true) (fun db h => ?_) Does.pure
    rw [sel_default h]
    cases hd : K.default <;> simp [Pib.addIdentity, hd]
  | true =>
    show Does _ K _ _
    refine Does.select (fun db h => sel_default h) ?_
    cases hd : K.default with
    | some m =>
      rw [addIdentity_self hi (by rw [hd]; rfl)]
      exact Does.pure
    | none =>
      have := does_setDefaultIdentity (K := K) hn
      have e : next K (.setDefaultIdentity n) = K.addIdentity n := by
        rw [addIdentity_default hi hd]; simp only [next]; rw [upd_of hi]
      rw [e] at this
      exact this.mono (by simp)

theorem does_addKey {k : Name} (hk : NameOk k) (hn : NameOk (up k)) (bits : Bytes) :
    Does (addKey (up k) k bits) K [K.addIdentity (up k), (K.addIdentity (up k)).putKey k bits, K.addKey (up k) k bits]
      (K.addKey (up k) k bits) := by
  unfold addKey hasKey hasDefaultKeyOfIdentity
  refine Does.bind (K' := K.addIdentity (up k)) ((does_addIdentity hn).mono (by simp)) ?_
  have hi : (K.addIdentity (up k)).identity (up k) = true := by simp [Pib.addIdentity, upd]
  refine Does.select (fun db h => sel_hasKey h hk) ?_
  have hkk : (K.addIdentity (up k)).key k = K.key k := rfl
  rw [hkk]
  cases hv : K.key k with
  | none =>
    refine Does.bind (K' := K.addKey (up k) k bits) (Does.write (fun db h => rep_insertKey h hk hi (hkk.trans hv) bits) (by simp)) ?_
    refine Does.select (a := true) (fun db h => ?_) Does.pure
    rw [isSome_default h.keys (sel_keysOf h hn)]
    simp only [Pib.addKey, upd, if_pos]
    cases K.defaultKey (up k) <;> rfl
  | some v =>
    refine Does.bind (K' := (K.addIdentity (up k)).putKey k bits)
      (Does.write (fun db h => rep_updateKey h (by rw [hkk, hv]; rfl) bits) (by simp)) ?_
    refine Does.select (fun db h => isSome_default h.keys (sel_keysOf h hn)) ?_
    have hdk : ((K.addIdentity (up k)).putKey k bits).defaultKey (up k) = K.defaultKey (up k) := rfl
    rw [hdk]
    cases hd : K.defaultKey (up k) with
    | some m =>
      have e : K.addKey (up k) k bits = (K.addIdentity (up k)).putKey k bits := by
        unfold Pib.addKey
        rw [upd_of (by rw [hd]; rfl)]
        rfl
      rw [e]
      exact Does.pure
    | none =>
      unfold setDefaultKeyOfIdentity hasKey
      have hs : (((K.addIdentity (up k)).putKey k bits).key k).isSome = true := by simp [Pib.putKey, upd]
      refine Does.select (a := true) (fun db h => by rw [sel_hasKey h hk, hs]) ?_
      have e : K.addKey (up k) k bits = { (K.addIdentity (up k)).putKey k bits with defaultKey := upd K.defaultKey (up k) (some k) } := by
        unfold Pib.addKey
        rw [hd]
        rfl
      simp only [Bool.not_true, Bool.false_eq_true, if_false]
      refine Does.write (fun db h => ?_) (by simp)
      rw [e]
      exact rep_defaultKey h hs

theorem nameOk_up {n : Name} (h : NameOk n) : NameOk (up n) := by
  refine ⟨fun c hc => h.1 c (List.mem_of_mem_take hc), ?_⟩
  have h2 := h.2
  have e : n = up n ++ n.drop (n.length - 2) := (List.take_append_drop _ _).symm
  rw [e] at h2
  have e2 : Spec.nameFields (up n ++ n.drop (n.length - 2)) = Spec.nameFields (up n) ++ Spec.nameFields (n.drop (n.length - 2)) := by
    simp [Spec.nameFields]
  rw [e2, flat_append, List.length_append] at h2
  omega

theorem identity_up (c : Name) : KeyChain.identityOfCert c = up (up c) := KeyChain.identityOfCert_eq c

theorem does_addCertificate {c : Data} (hc : CertOk c) :
    Does (addCertificate c) K (midway K (.addCertificate c)) (K.addCert c) := by
  obtain ⟨_, bits, hb, _⟩ := KeyChain.checkCert_content hc.2.2.1
  obtain ⟨wire, x, y, hw, _⟩ := hc.2.2.2
  have hk := nameOk_up hc.2.1
  have he : (encodedCert c : M Bytes) = pure wire := by unfold encodedCert; rw [hw]
  have hkc : KeyChain.keyOfCert c.name = up c.name := rfl
  unfold addCertificate
  rw [hb, identity_up, hkc, he]
  unfold hasCertificate hasDefaultCertificateOfKey
  have hgd : c.content.getD [] = bits := by rw [hb]; rfl
  have hac : K.addCert c = { (K.addKey (up (up c.name)) (up c.name) bits).putCert c with
      defaultCert := upd K.defaultCert (up c.name) (K.defaultCert (up c.name) <|> some c.name) } := by
    unfold Pib.addCert; rw [hgd]
  have hm : midway K (.addCertificate c) = [K, K.addIdentity (up (up c.name)), (K.addIdentity (up (up c.name))).putKey (up c.name) bits,
      K.addKey (up (up c.name)) (up c.name) bits, (K.addKey (up (up c.name)) (up c.name) bits).putCert c, K.addCert c] := by
    simp only [midway, hgd]
  rw [hm]
  simp only [pure_then]
  refine Does.bind (K' := K.addKey (up (up c.name)) (up c.name) bits) ((does_addKey hk (nameOk_up hk) bits).mono (by simp)) ?_
  refine Does.select (fun db h => sel_hasCert h hc.2.1) ?_
  have hcc : (K.addKey (up (up c.name)) (up c.name) bits).cert c.name = K.cert c.name := rfl
  rw [hcc]
  cases hv : K.cert c.name with
  | none =>
    refine Does.bind (K' := K.addCert c) ?_ ?_
    · refine Does.write (fun db h => ?_) (by simp)
      have := rep_insertCert h hc ⟨x, y, hw⟩ (by simp [Pib.addKey, Pib.putKey, upd]) (hcc.trans hv)
      rw [hac]
      exact this
    · refine Does.select (a := true) (fun db h => ?_) Does.pure
      rw [isSome_default h.certs (sel_certsOf h hk), hac]
      simp only [upd, if_pos]
      cases K.defaultCert (up c.name) <;> rfl
  | some v =>
    refine Does.bind (K' := (K.addKey (up (up c.name)) (up c.name) bits).putCert c)
      (Does.write (fun db h => rep_updateCert h hc ⟨x, y, hw⟩ (by rw [hcc, hv]; rfl)) (by simp)) ?_
    refine Does.select (fun db h => isSome_default h.certs (sel_certsOf h hk)) ?_
    have hdk : ((K.addKey (up (up c.name)) (up c.name) bits).putCert c).defaultCert (up c.name) = K.defaultCert (up c.name) := rfl
    rw [hdk]
    cases hd : K.defaultCert (up c.name) with
    | some m =>
      have e : K.addCert c = (K.addKey (up (up c.name)) (up c.name) bits).putCert c := by
        rw [hac, upd_of (by rw [hd]; rfl)]
        rfl
      rw [e]
      exact Does.pure
    | none =>
      unfold setDefaultCertificateOfKey hasCertificate
      have hs : (((K.addKey (up (up c.name)) (up c.name) bits).putCert c).cert c.name).isSome = true := by simp [Pib.putCert, upd]
      refine Does.select (a := true) (fun db h => by rw [sel_hasCert h hc.2.1, hs]) ?_
      have e : K.addCert c = { (K.addKey (up (up c.name)) (up c.name) bits).putCert c with
          defaultCert := upd K.defaultCert (up c.name) (some c.name) } := by
        rw [hac, hd]
        rfl
      simp only [Bool.not_true, Bool.false_eq_true, if_false]
      refine Does.write (fun db h => ?_) (by simp)
      rw [e]
      exact rep_defaultCert h hs

/-! ### Methods that read -/

theorem decoded_ok {n : Name} (hn : NameOk n) {b : Bytes} (hb : b = encodeName n) (e : Err → PErr) (s : Conn) : decoded e b s = (.ok n, s) := by
  have hd : decodeName b = .ok n := by
    have := C09_roundtrip n hn.1 hn.2 []
    rw [List.append_nil] at this
    rw [hb, this]
  simp only [decoded, hd]
  rfl

theorem decodedCert_ok {b : Bytes} {c : Data} (h : Wire b c) (s : Conn) : ∃ c', decodedCert b s = (.ok c', s) ∧ SameData c c' := by
  obtain ⟨⟨hd, _, hck, wire, x', y', hw', hl⟩, x, y, hw⟩ := h
  have hwb : wire = b := by rw [hw] at hw'; cases hw'; rfl
  subst hwb
  obtain ⟨c', hdec, hs⟩ := C22_roundtrip c {} hd wire x y hw hl []
  rw [List.append_nil] at hdec
  refine ⟨c', ?_, hs⟩
  have hck' : KeyChain.checkCert c' = .ok () := by
    obtain ⟨hcn, bits, hb, hne⟩ := KeyChain.checkCert_content hck
    have hf : c.metaInfo.type = 2 ∧ c.metaInfo.freshnessPeriod ≠ none := by
      unfold KeyChain.checkCert Validator.checkFormat at hck
      dsimp only at hck
      rw [KeyChain.isValidCertName_eq, hcn] at hck
      have h' : (if (!true) = true then .error .value else if c.metaInfo.type ≠ 2 then .error .value else
        if c.metaInfo.freshnessPeriod = none then .error .type else
        if blobSize c.content = 0 then .error .value else (.ok () : Except Err Unit)) = .ok () := hck
      rw [if_neg (by decide)] at h'
      split at h'
      · cases h'
      · rename_i h1
        split at h'
        · cases h'
        · rename_i h2
          exact ⟨Decidable.not_not.mp h1, h2⟩
    obtain ⟨s1, s2, s3, _⟩ := hs
    have hb' : c'.content = some bits := by
      rw [hb] at s3
      cases hq : c'.content with
      | none => rw [hq] at s3; exact absurd s3 hne
      | some b' => rw [hq] at s3; simp only [Option.getD_some] at s3; rw [s3]
    exact KeyChain.checkCert_ok (by rw [← s1]; exact hcn) (by rw [← s2.1]; exact hf.1) (by rw [← s2.2.2.1]; exact hf.2) hb' hne
  simp only [decodedCert, hdec, hck']
  rfl

/-- A call: what it gives, what the database stands for then, and at each commit. -/
def CallSpec (K : Pib) (db : DB) (op : Op) : Prop :=
  Gives K (call op ⟨db, []⟩).1 op ∧ Rep (call op ⟨db, []⟩).2.db (next K op) ∧
  ∀ d ∈ (call op ⟨db, []⟩).2.log, ∃ K' ∈ midway K op, Rep d K'

theorem callSpec_does {db : DB} (h : Rep db K) {op : Op} {m : M Unit} (hc : call op = toRes m fun _ => .none)
    (hd : Does m K (midway K op) (next K op)) (hg : Gives K .none op) : CallSpec K db op := by
  obtain ⟨db', l, e, r, c⟩ := hd db [] h
  unfold CallSpec
  rw [hc]
  unfold toRes
  rw [e]
  exact ⟨hg, r, fun d hd => c d hd⟩

theorem callSpec_read {db : DB} (h : Rep db K) {op : Op} {r : Res} (hc : call op ⟨db, []⟩ = (r, ⟨db, []⟩)) (hn : next K op = K)
    (hg : Gives K r op) : CallSpec K db op := by
  unfold CallSpec
  rw [hc, hn]
  exact ⟨hg, h, fun _ hd => (nomatch hd)⟩

theorem does_write {q : Stmt} {op : Op} (h : ∀ db, Rep db K → ∃ db', exec db q = some db' ∧ Rep db' (next K op))
    (hm : next K op ∈ midway K op) : Does (write q) K (midway K op) (next K op) := Does.write h hm

theorem up_append (n : Name) (a b : Component) : up (n ++ [a, b]) = n := by
  unfold up
  simp

theorem call_spec {db : DB} (h : Rep db K) (op : Op) (hf : Fine op) : CallSpec K db op := by
  cases op with
  | setTpmLocator l =>
    refine callSpec_does h rfl ?_ rfl
    unfold setTpmLocator getTpmLocator
    have hl : l ≠ [] := hf
    have ho : ∀ db, Rep db K → db.tpmInfo.head?.getD [] = K.locator := by
      intro db h
      rcases h.tpm with ⟨h1, h2⟩ | ⟨h1, _⟩
      · rw [h1, h2]; rfl
      · rw [h1]; rfl
    refine Does.select ho ?_
    by_cases hk : K.locator = []
    · rw [if_pos hk]
      refine Does.write (fun db h => ⟨_, rfl, h.ids, h.keys, h.certs, .inr ⟨?_, hl⟩⟩) (by simp [midway])
      rcases h.tpm with ⟨h1, _⟩ | ⟨_, h2⟩
      · simp [h1, next]
      · exact absurd hk h2
    · rw [if_neg hk]
      refine Does.write (fun db h => ⟨_, rfl, h.ids, h.keys, h.certs, .inr ⟨?_, hl⟩⟩) (by simp [midway])
      rcases h.tpm with ⟨_, h2⟩ | ⟨h1, _⟩
      · exact absurd h2 hk
      · simp [h1, next]
  | getTpmLocator =>
    refine callSpec_read h rfl rfl ?_
    show Res.bytes (db.tpmInfo.head?.getD []) = .bytes K.locator
    rcases h.tpm with ⟨h1, h2⟩ | ⟨h1, _⟩
    · rw [h1, h2]; rfl
    · rw [h1]; rfl
  | hasIdentity n => exact callSpec_read h rfl rfl (congrArg Res.bool (sel_hasIdentity h hf))
  | addIdentity n => exact callSpec_does h rfl ((does_addIdentity hf).mono (by simp [midway, next])) rfl
  | removeIdentity n => exact callSpec_does h rfl (Does.write (fun db h => rep_deleteIdentity h hf) (by simp [midway, next])) rfl
  | clearIdentities => exact callSpec_does h rfl (Does.write (fun db h => rep_deleteIdentities h) (by simp [midway, next])) rfl
  | getIdentities =>
    obtain ⟨l, h1, h2, h3⟩ := h.ids.all (sel_identities h) ⟨db, []⟩
    refine callSpec_read h (r := .names l) ?_ rfl ⟨l, rfl, h2, fun n => ?_⟩
    · show toRes (decodedAll db.identities) Res.names ⟨db, []⟩ = _
      unfold toRes; rw [h1]
    · rw [h3]
      unfold idVal
      dsimp only
      cases hi : K.identity n <;> simp
  | setDefaultIdentity n => exact callSpec_does h rfl ((does_setDefaultIdentity hf).mono (by simp [midway])) rfl
  | getDefaultIdentity =>
    have := h.ids.default (sel_identities h)
    have e : idDef K [] = K.default := rfl
    rw [e] at this
    have hc : call .getDefaultIdentity ⟨db, []⟩ = toRes (match db.identities.find? (·.isDefault) with
      | some r => decoded .py r.name
      | none => raise .pib) Res.name ⟨db, []⟩ := rfl
    cases hq : db.identities.find? (·.isDefault) with
    | none =>
      rw [hq] at this hc
      refine callSpec_read h hc rfl ?_
      show Res.error .pib = orError (K.default.map .name)
      rw [this]; rfl
    | some r =>
      rw [hq] at this hc
      obtain ⟨m, hm, hr, e, hd⟩ := this
      unfold toRes at hc
      simp only [decoded_ok hm e] at hc
      refine callSpec_read h hc rfl ?_
      show Res.name m = orError (K.default.map .name)
      rw [hd]; rfl
  | hasKey k => exact callSpec_read h rfl rfl (congrArg Res.bool (sel_hasKey h hf))
  | addKey n k bits =>
    obtain ⟨hk, i, he⟩ := hf
    have hu : up k = n := by rw [he, up_append]
    subst hu
    exact callSpec_does h rfl ((does_addKey hk (nameOk_up hk) bits).mono (by simp [midway])) rfl
  | removeKey k => exact callSpec_does h rfl (Does.write (fun db h => rep_deleteKey h hf) (by simp [midway, next])) rfl
  | getKeyBits k =>
    have hk : NameOk k := hf
    have hc : call (.getKeyBits k) ⟨db, []⟩ = toRes (match db.keys.find (encodeName k) with
      | some r => pure r.data
      | none => raise .pib) Res.bytes ⟨db, []⟩ := rfl
    cases hv : K.key k with
    | none =>
      have := sel_hasKey h hk
      rw [hv] at this
      have hnone := Option.isNone_iff_eq_none.mp (Option.isSome_eq_false_iff.mp this)
      rw [hnone] at hc
      refine callSpec_read h hc rfl ?_
      show Res.error .pib = orError ((K.key k).map .bytes)
      rw [hv]; rfl
    | some v =>
      obtain ⟨r, hr, hq, e, _, hd⟩ := h.keys.findSome hv
      rw [hq] at hc
      refine callSpec_read h hc rfl ?_
      show Res.bytes r.data = orError ((K.key k).map .bytes)
      rw [hv, hd]; rfl
  | getKeysOfIdentity n =>
    obtain ⟨l, h1, h2, h3⟩ := h.keys.all (sel_keysOf h hf) ⟨db, []⟩
    refine callSpec_read h (r := .names l) ?_ rfl ⟨l, rfl, h2, h3⟩
    show toRes (decodedAll (db.keysOf (encodeName n))) Res.names ⟨db, []⟩ = _
    unfold toRes; rw [h1]
  | setDefaultKeyOfIdentity n k =>
    obtain ⟨hk, i, he⟩ := hf
    have hu : up k = n := by rw [he, up_append]
    subst hu
    cases hv : (K.key k).isSome with
    | true =>
      refine callSpec_does h rfl ?_ (by simp [Gives, hv])
      unfold setDefaultKeyOfIdentity hasKey
      refine Does.select (a := true) (fun db h => by rw [sel_hasKey h hk, hv]) ?_
      simp only [Bool.not_true, Bool.false_eq_true, if_false]
      refine Does.write (fun db h => ?_) (by simp [midway])
      simp only [next, hv, if_true]
      exact rep_defaultKey h hv
    | false =>
      have hc : call (.setDefaultKeyOfIdentity (up k) k) ⟨db, []⟩ = (.error .pib, ⟨db, []⟩) := by
        have hs := sel_hasKey h hk
        rw [hv] at hs
        show toRes (setDefaultKeyOfIdentity (up k) k) _ _ = _
        simp only [setDefaultKeyOfIdentity, hasKey, select, toRes, bind, M.bind, hs, Bool.not_false, if_true, raise]
      exact callSpec_read h hc (by simp [next, hv]) (by simp [Gives, hv])
  | getDefaultKeyOfIdentity n =>
    have hn : NameOk n := hf
    have hid := sel_hasIdentity h hn
    have := h.keys.default (sel_keysOf h hn)
    cases hi : K.identity n with
    | false =>
      have hc : call (.getDefaultKeyOfIdentity n) ⟨db, []⟩ = (.error .pib, ⟨db, []⟩) := by
        rw [hi] at hid
        show toRes (getDefaultKeyOfIdentity n) _ _ = _
        simp only [getDefaultKeyOfIdentity, hasIdentity, select, toRes, bind, M.bind, hid, Bool.not_false, if_true, raise]
      refine callSpec_read h hc rfl ?_
      show Res.error .pib = orError ((K.defaultKey n).map .name)
      cases hd : K.defaultKey n with
      | none => rfl
      | some m =>
        obtain ⟨h1, h2, r, hr, h3, h4⟩ := h.keys.hdflt _ _ hd
        obtain ⟨⟨_, x, hx, e, _⟩, _⟩ := h.keys.rowOf hr h2 h3
        rw [← h1] at e
        obtain ⟨_, v, hv, _⟩ := h.ids.rowOf hx hn e
        rw [idVal_none hi] at hv
        cases hv
    | true =>
      rw [hi] at hid
      have hc : call (.getDefaultKeyOfIdentity n) ⟨db, []⟩ = toRes (match (db.keysOf (encodeName n)).find? (·.isDefault) with
          | some r => decoded .py r.name
          | none => raise .pib) Res.name ⟨db, []⟩ := by
        show toRes (getDefaultKeyOfIdentity n) _ _ = _
        simp only [getDefaultKeyOfIdentity, hasIdentity, select, toRes, bind, M.bind, hid, Bool.not_true, Bool.false_eq_true, if_false]
        rfl
      cases hq : (db.keysOf (encodeName n)).find? (·.isDefault) with
      | none =>
        rw [hq] at this hc
        refine callSpec_read h hc rfl ?_
        show Res.error .pib = orError ((K.defaultKey n).map .name)
        rw [this]; rfl
      | some r =>
        rw [hq] at this hc
        obtain ⟨m, hm, hr, e, hd⟩ := this
        unfold toRes at hc
        simp only [decoded_ok hm e] at hc
        refine callSpec_read h hc rfl ?_
        show Res.name m = orError ((K.defaultKey n).map .name)
        rw [hd]; rfl
  | hasCertificate c => exact callSpec_read h rfl rfl (congrArg Res.bool (sel_hasCert h hf))
  | addCertificate c => exact callSpec_does h rfl (does_addCertificate hf) rfl
  | removeCertificate c => exact callSpec_does h rfl (Does.write (fun db h => rep_deleteCert h hf) (by simp [midway, next])) rfl
  | getCertificate c =>
    have hk : NameOk c := hf
    have hc : call (.getCertificate c) ⟨db, []⟩ = toRes (match db.certs.find (encodeName c) with
      | some r => decodedCert r.data
      | none => raise .pib) Res.cert ⟨db, []⟩ := rfl
    cases hv : K.cert c with
    | none =>
      have := sel_hasCert h hk
      rw [hv] at this
      have hnone := Option.isNone_iff_eq_none.mp (Option.isSome_eq_false_iff.mp this)
      rw [hnone] at hc
      refine callSpec_read h hc rfl ?_
      show Cert (K.cert c) (.error .pib)
      rw [hv]; rfl
    | some v =>
      obtain ⟨r, hr, hq, e, _, hd⟩ := h.certs.findSome hv
      obtain ⟨c', h1, h2⟩ := decodedCert_ok hd ⟨db, []⟩
      rw [hq] at hc
      unfold toRes at hc
      simp only [h1] at hc
      refine callSpec_read h hc rfl ?_
      show Cert (K.cert c) (.cert c')
      rw [hv]
      exact ⟨c', rfl, h2⟩
  | getCertificatesOfKey k =>
    obtain ⟨l, h1, h2, h3⟩ := h.certs.all (sel_certsOf h hf) ⟨db, []⟩
    refine callSpec_read h (r := .names l) ?_ rfl ⟨l, rfl, h2, h3⟩
    show toRes (decodedAll (db.certsOf (encodeName k))) Res.names ⟨db, []⟩ = _
    unfold toRes; rw [h1]
  | setDefaultCertificateOfKey k c =>
    obtain ⟨hk, i, j, he⟩ := hf
    have hu : up c = k := by rw [he, up_append]
    subst hu
    cases hv : (K.cert c).isSome with
    | true =>
      refine callSpec_does h rfl ?_ (by simp [Gives, hv])
      unfold setDefaultCertificateOfKey hasCertificate
      refine Does.select (a := true) (fun db h => by rw [sel_hasCert h hk, hv]) ?_
      simp only [Bool.not_true, Bool.false_eq_true, if_false]
      refine Does.write (fun db h => ?_) (by simp [midway])
      simp only [next, hv, if_true]
      exact rep_defaultCert h hv
    | false =>
      have hc : call (.setDefaultCertificateOfKey (up c) c) ⟨db, []⟩ = (.error .pib, ⟨db, []⟩) := by
        have hs := sel_hasCert h hk
        rw [hv] at hs
        show toRes (setDefaultCertificateOfKey (up c) c) _ _ = _
        simp only [setDefaultCertificateOfKey, hasCertificate, select, toRes, bind, M.bind, hs, Bool.not_false, if_true, raise]
      exact callSpec_read h hc (by simp [next, hv]) (by simp [Gives, hv])
  | getDefaultCertificateOfKey k =>
    have hk : NameOk k := hf
    have := h.certs.default (sel_certsOf h hk)
    have hc : call (.getDefaultCertificateOfKey k) ⟨db, []⟩ = toRes (match (db.certsOf (encodeName k)).find? (·.isDefault) with
        | some r => decodedCert r.data
        | none => raise .pib) Res.cert ⟨db, []⟩ := rfl
    cases hq : (db.certsOf (encodeName k)).find? (·.isDefault) with
    | none =>
      rw [hq] at this hc
      refine callSpec_read h hc rfl ?_
      show Cert ((K.defaultCert k).bind K.cert) (.error .pib)
      rw [this]; rfl
    | some r =>
      rw [hq] at this hc
      obtain ⟨m, hm, hr, e, hd⟩ := this
      obtain ⟨_, v, hv, hw⟩ := h.certs.rowOf hr hm e
      obtain ⟨c', h1, h2⟩ := decodedCert_ok hw ⟨db, []⟩
      unfold toRes at hc
      simp only [h1] at hc
      refine callSpec_read h hc rfl ?_
      show Cert ((K.defaultCert k).bind K.cert) (.cert c')
      rw [hd]
      simp only [Option.bind_some, hv]
      exact ⟨c', rfl, h2⟩

/-! ### Histories -/

theorem run_spec : ∀ (ops : List Op) {db : DB} {K : Pib}, Rep db K → (∀ op ∈ ops, Fine op) →
    Agree K ops (run db ops).1 ∧ Rep (run db ops).2 (after K ops)
  | [], _, _, h, _ => ⟨rfl, h⟩
  | op :: ops, db, K, h, hf => by
    obtain ⟨h1, h2, _⟩ := call_spec h op (hf op List.mem_cons_self)
    obtain ⟨h3, h4⟩ := run_spec ops h2 fun x hx => hf x (List.mem_cons_of_mem _ hx)
    exact ⟨⟨_, _, rfl, h1, h3⟩, h4⟩

/-- C74: from a new database, any history of calls, each by the same or by a new process, gives what the documentation says of a PIB. -/
theorem C74_map (ops : List Op) (hf : ∀ op ∈ ops, Fine op) : Agree {} ops (run {} ops).1 := (run_spec ops rep_empty hf).1

/-- C74: if the process is killed in a call, at any commit or between, then what follows gives what the documentation says for a PIB where the
call was done, was not done, or was done in part: the identity without the key, the key without the certificate, or what was added
without making it the default. -/
theorem C74_crash (before : List Op) (op : Op) (rest : List Op) (hb : ∀ op ∈ before, Fine op) (ho : Fine op) (hr : ∀ op ∈ rest, Fine op)
    (d : DB) (hd : d = (run {} before).2 ∨ d ∈ (call op ⟨(run {} before).2, []⟩).2.log) :
    ∃ K ∈ midway (after {} before) op, Agree K rest (run d rest).1 := by
  have h := (run_spec before rep_empty hb).2
  have key : ∃ K ∈ midway (after {} before) op, Rep d K := by
    rcases hd with rfl | hd
    · refine ⟨_, ?_, h⟩
      cases op <;> simp [midway]
    · exact (call_spec h op ho).2.2 d hd
  obtain ⟨K, hK, hrep⟩ := key
  exact ⟨K, hK, (run_spec rest hrep hr).1⟩

/-- The database is the last that was committed. -/
def Kept (m : M α) : Prop := ∀ base s, s.db = s.log.getLast?.getD base → (m s).2.db = (m s).2.log.getLast?.getD base

theorem Kept.pure {α : Type} (a : α) : Kept (Pure.pure a : M α) := fun _ _ h => h
theorem Kept.raise {α : Type} (e : PErr) : Kept (raise e : M α) := fun _ _ h => h
theorem Kept.select {α : Type} (f : DB → α) : Kept (PibSqlite.select f) := fun _ _ h => h
theorem Kept.write (q : Stmt) : Kept (PibSqlite.write q) := by
  intro base s h
  unfold PibSqlite.write
  split
  · simp
  · exact h
theorem Kept.bind {α β : Type} {m : M α} {f : α → M β} (hm : Kept m) (hf : ∀ a, Kept (f a)) : Kept (m >>= f) := by
  intro base s h
  show (M.bind m f s).2.db = (M.bind m f s).2.log.getLast?.getD base
  unfold M.bind
  have := hm base s h
  cases hq : m s with
  | mk r s' =>
    rw [hq] at this
    cases r with
    | ok a => exact hf a base s' this
    | error e => exact this
theorem Kept.ite {α : Type} {c : Prop} [Decidable c] {m m' : M α} (h : Kept m) (h' : Kept m') : Kept (if c then m else m') := by
  split
  · exact h
  · exact h'
theorem Kept.decoded (e : Err → PErr) (b : Bytes) : Kept (PibSqlite.decoded e b) := by
  unfold PibSqlite.decoded
  split
  · exact Kept.pure _
  · exact Kept.raise _
theorem Kept.decodedAll : ∀ u : List Row, Kept (PibSqlite.decodedAll u)
  | [] => Kept.pure _
  | r :: u => (Kept.decoded _ _).bind fun _ => (Kept.decodedAll u).bind fun _ => Kept.pure _
theorem Kept.decodedCert (b : Bytes) : Kept (PibSqlite.decodedCert b) := by
  unfold PibSqlite.decodedCert
  split
  · split
    · exact Kept.pure _
    · exact Kept.raise _
  · exact Kept.raise _
theorem Kept.encodedCert (c : Data) : Kept (PibSqlite.encodedCert c) := by
  unfold PibSqlite.encodedCert
  split
  · exact Kept.pure _
  · exact Kept.raise _
theorem Kept.setDefaultIdentity (n : Name) : Kept (PibSqlite.setDefaultIdentity n) :=
  (Kept.select _).bind fun _ => Kept.ite ((Kept.write _).bind fun _ => Kept.write _) (Kept.write _)
theorem Kept.addIdentity (n : Name) : Kept (PibSqlite.addIdentity n) :=
  (Kept.select _).bind fun _ =>
    have h : Kept (hasDefaultIdentity >>= fun b => if !b then PibSqlite.setDefaultIdentity n else Pure.pure ()) :=
      (Kept.select _).bind fun _ => Kept.ite (Kept.setDefaultIdentity n) (Kept.pure _)
    Kept.ite ((Kept.write _).bind fun _ => h) h
theorem Kept.setDefaultKeyOfIdentity (n k : Name) : Kept (PibSqlite.setDefaultKeyOfIdentity n k) :=
  (Kept.select _).bind fun _ => Kept.ite ((Kept.raise _).bind fun _ => Kept.write _) (Kept.write _)
theorem Kept.addKey (n k : Name) (bits : Bytes) : Kept (PibSqlite.addKey n k bits) :=
  (Kept.addIdentity n).bind fun _ => (Kept.select _).bind fun _ =>
    have h : Kept (hasDefaultKeyOfIdentity n >>= fun b => if !b then PibSqlite.setDefaultKeyOfIdentity n k else Pure.pure ()) :=
      (Kept.select _).bind fun _ => Kept.ite (Kept.setDefaultKeyOfIdentity n k) (Kept.pure _)
    Kept.ite ((Kept.write _).bind fun _ => h) ((Kept.write _).bind fun _ => h)
theorem Kept.setDefaultCertificateOfKey (k c : Name) : Kept (PibSqlite.setDefaultCertificateOfKey k c) :=
  (Kept.select _).bind fun _ => Kept.ite ((Kept.raise _).bind fun _ => Kept.write _) (Kept.write _)
theorem Kept.addCertificate (c : Data) : Kept (PibSqlite.addCertificate c) := by
  unfold PibSqlite.addCertificate
  cases c.content with
  | none =>
    refine (Kept.addIdentity _).bind fun _ => (Kept.raise _).bind fun _ => ?_
    dsimp only
    refine (Kept.select _).bind fun _ => Kept.ite ?_ ?_
    all_goals
      exact (Kept.encodedCert _).bind fun _ => (Kept.write _).bind fun _ => (Kept.select _).bind fun _ =>
        Kept.ite (Kept.setDefaultCertificateOfKey _ _) (Kept.pure _)
  | some bits =>
    refine (Kept.addKey _ _ _).bind fun _ => ?_
    dsimp only
    refine (Kept.select _).bind fun _ => Kept.ite ?_ ?_
    all_goals
      exact (Kept.encodedCert _).bind fun _ => (Kept.write _).bind fun _ => (Kept.select _).bind fun _ =>
        Kept.ite (Kept.setDefaultCertificateOfKey _ _) (Kept.pure _)

theorem Kept.call {α : Type} {op : Op} {m : M α} {f : α → Res} (h : Kept m) (hc : call op = toRes m f) (db : DB) :
    (PibSqlite.call op ⟨db, []⟩).2.db = (PibSqlite.call op ⟨db, []⟩).2.log.getLast?.getD db := by
  have := h db ⟨db, []⟩ rfl
  rw [hc]
  unfold toRes
  cases hq : m ⟨db, []⟩ with
  | mk r s => rw [hq] at this; cases r <;> exact this

/-- C74: what a call leaves is what it committed last: nothing is lost if the process is killed after the call. -/
theorem C74_durable (op : Op) (db : DB) : (call op ⟨db, []⟩).2.db = (call op ⟨db, []⟩).2.log.getLast?.getD db := by
  cases op with
  | setTpmLocator l => exact Kept.call (m := setTpmLocator l) ((Kept.select _).bind fun _ => Kept.ite (Kept.write _) (Kept.write _)) rfl db
  | getTpmLocator => exact Kept.call (m := PibSqlite.getTpmLocator) (Kept.select _) rfl db
  | hasIdentity n => exact Kept.call (m := PibSqlite.hasIdentity n) (Kept.select _) rfl db
  | addIdentity n => exact Kept.call (Kept.addIdentity n) rfl db
  | removeIdentity n => exact Kept.call (m := PibSqlite.removeIdentity n) (f := fun _ => .none) (Kept.write _) rfl db
  | clearIdentities => exact Kept.call (m := PibSqlite.clearIdentities) (f := fun _ => .none) (Kept.write _) rfl db
  | getIdentities => exact Kept.call (m := getIdentities) ((Kept.select _).bind fun _ => Kept.decodedAll _) rfl db
  | setDefaultIdentity n => exact Kept.call (Kept.setDefaultIdentity n) rfl db
  | getDefaultIdentity =>
    refine Kept.call (m := getDefaultIdentity) ((Kept.select _).bind fun r => ?_) rfl db
    cases r with
    | none => exact Kept.raise _
    | some r => exact Kept.decoded _ _
  | hasKey k => exact Kept.call (m := PibSqlite.hasKey k) (Kept.select _) rfl db
  | addKey n k bits => exact Kept.call (Kept.addKey n k bits) rfl db
  | removeKey k => exact Kept.call (m := PibSqlite.removeKey k) (f := fun _ => .none) (Kept.write _) rfl db
  | getKeyBits k =>
    refine Kept.call (m := getKeyBits k) ((Kept.select _).bind fun r => ?_) rfl db
    cases r with
    | none => exact Kept.raise _
    | some r => exact Kept.pure _
  | getKeysOfIdentity n => exact Kept.call (m := getKeysOfIdentity n) ((Kept.select _).bind fun _ => Kept.decodedAll _) rfl db
  | setDefaultKeyOfIdentity n k => exact Kept.call (Kept.setDefaultKeyOfIdentity n k) rfl db
  | getDefaultKeyOfIdentity n =>
    have h : ∀ r : Option Row, Kept (match r with
        | some r => decoded .py r.name
        | none => raise .pib : M Name) := fun r => by
      cases r with
      | none => exact Kept.raise _
      | some r => exact Kept.decoded _ _
    exact Kept.call (m := getDefaultKeyOfIdentity n) ((Kept.select _).bind fun _ =>
      Kept.ite ((Kept.raise _).bind fun _ => (Kept.select _).bind h) ((Kept.select _).bind h)) rfl db
  | hasCertificate c => exact Kept.call (m := PibSqlite.hasCertificate c) (Kept.select _) rfl db
  | addCertificate c => exact Kept.call (Kept.addCertificate c) rfl db
  | removeCertificate c => exact Kept.call (m := PibSqlite.removeCertificate c) (f := fun _ => .none) (Kept.write _) rfl db
  | getCertificate c =>
    refine Kept.call (m := getCertificate c) ((Kept.select _).bind fun r => ?_) rfl db
    cases r with
    | none => exact Kept.raise _
    | some r => exact Kept.decodedCert _
  | getCertificatesOfKey k => exact Kept.call (m := getCertificatesOfKey k) ((Kept.select _).bind fun _ => Kept.decodedAll _) rfl db
  | setDefaultCertificateOfKey k c => exact Kept.call (Kept.setDefaultCertificateOfKey k c) rfl db
  | getDefaultCertificateOfKey k =>
    refine Kept.call (m := getDefaultCertificateOfKey k) ((Kept.select _).bind fun r => ?_) rfl db
    cases r with
    | none => exact Kept.raise _
    | some r => exact Kept.decodedCert _

/-- C74: whatever statements any number of processes execute, in any order, in each database that is committed row numbers and names are
unique, each group has at most one default, and each key and each certificate belongs to a row that exists. -/
theorem C74_interleaved {db : DB} (h : Integrity db) (qs : List Stmt) : ∀ d, qs.foldl (fun d q => (exec d q).getD d) db = d → Integrity d := by
  induction qs generalizing db with
  | nil => intro d e; rw [← e]; exact h
  | cons q qs ih =>
    intro d e
    refine ih ?_ d e
    dsimp only
    cases hq : exec db q with
    | none => exact h
    | some db' => exact integrity_exec h hq

end PyNDN.PibSqlite
