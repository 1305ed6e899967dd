import Verif.Lemmas.NacSystem
/-
Invariant of a system with name-based access control.
-/
namespace PyNDN
namespace Nac
open Spec.Nac
open Spec (tlv flat nonNeg opt DataOk SameData CanonicalName Canonical)
open Spec.KeyChain (Sound Disciplined Proper Consistent)
open Encrypt (EncryptedContent SafeBag)
open PSync (dictGet dictSet)
open KeyChain (KC K Coh Quiet After keyOfCert identityOfKey checkCert importSafeBag isValidKeyName)

/-- Everything that is assumed; `p` is the private key of the NAC key `k`. -/
structure World (E : EncParams) (D : DecParams) (now : Nat) (bits : Bytes) (env : Env) (acts : List EAct) (ops : List KeyChain.Op)
    (certificate member kekPacket kdkPacket : Data) (k : Name) (p : Nat) : Prop where
  C : Crypto E D member
  M : Managed E D ops certificate member kekPacket kdkPacket
  R : Produces E now bits env acts kekPacket
  sep : Separate E now bits env acts kdkPacket
  raises : ∀ c, D.raises c = false
  key : k = keyOfCert certificate.name
  valid : isValidKeyName k = true
  content : certificate.content = some (D.kc.publicKey p)
  private_ : dictGet k (KeyChain.run D.kc ops).tpm = some p

variable {E : EncParams} {D : DecParams} {now : Nat} {bits : Bytes} {env : Env} {eacts : List EAct} {ops : List KeyChain.Op}
  {certificate member kekPacket kdkPacket : Data} {k : Name} {p : Nat}

theorem World.kekName (W : World E D now bits env eacts ops certificate member kekPacket kdkPacket k p) :
    kekPacket.name = kekName k ∧ kekPacket.content = some (D.kc.publicKey p) := by
  obtain ⟨d, rfl, h1, h2⟩ := W.M.kek
  rw [← W.key] at h1
  exact ⟨h1, by rw [h2]; exact W.content⟩

theorem World.kdkName (W : World E D now bits env eacts ops certificate member kekPacket kdkPacket k p) :
    kdkPacket.name = identityOfKey k ++ [kdk] ++ k.drop (k.length - 1) ++ [encryptedBy] ++ D.credentials := by
  obtain ⟨bag, randomBytes, random, d, s0, h1, h2, h3, h4⟩ := W.M.kdk
  unfold kdkData at h2
  dsimp only at h2
  cases hw : SafeBag.wireEncode { certificate := certificate, privateKeyBag := bag } with
  | error e => rw [hw] at h2; nomatch h2
  | ok payload =>
    rw [hw] at h2
    simp only [bind, Except.bind] at h2
    cases hr : E.rsaEncrypt member.content (randomBytes.map secretByte) random with
    | none => rw [hr] at h2; nomatch h2
    | some payloadKey =>
      rw [hr] at h2
      cases h2
      rw [h3, W.M.credentials, W.key]
      rfl

/-- The content of a CK packet gives the CK. -/
theorem World.ckContent (W : World E D now bits env eacts ops certificate member kekPacket kdkPacket k p) {n : Name} {b : Bytes} {d : Data}
    (h : IsCkPacket E n b kekPacket d) : ∃ wire content, d.content = some wire ∧ Encrypt.decodeEncryptedContentV2 wire = .ok content ∧
      D.rsaDecrypt p (content.payload.getD []) = some b := by
  obtain ⟨_, random, payload, h1, h2⟩ := h
  rw [W.kekName.2] at h1
  have hsize := (W.C.size _ _ _ _ h1).2
  have he : Encrypt.encodeEncryptedContentV2 { payload := some payload } = tlv 130 (flat [(132, payload)]) := by
    rw [Encrypt.C67_encoding_v2]
    rfl
  have hlen : (tlv 130 (flat [(132, payload)])).length < 2 ^ 64 := by
    have l1 : ∀ v, (Spec.varNum v).length ≤ 9 := by
      intro v
      unfold Spec.varNum
      split
      · simp [Spec.be]
      · split
        · simp [Spec.be]
        · split <;> simp [Spec.be]
    have l2 : ∀ t v, (tlv t v).length ≤ 18 + v.length := by
      intro t v
      rw [tlv, List.length_append, List.length_append]
      have := l1 t
      have := l1 v.length
      omega
    have a1 := l2 130 (flat [(132, payload)])
    have a2 := l2 132 payload
    rw [← flat_one] at a2
    omega
  have hdec := Encrypt.C67_roundtrip_v2 { payload := some payload } (by nofun) (by rw [he]; exact hlen) []
  rw [List.append_nil, he] at hdec
  exact ⟨_, _, h2, hdec, W.C.rsa _ _ _ _ h1⟩

namespace Decryptor

/-- An Interest that is waiting for an answer. -/
def JobOk (E : EncParams) (now : Nat) (bits : Bytes) (env : Env) (eacts : List EAct) (kekPacket kdkPacket : Data) (k : Name)
    (acts : List DAct) (s : Decryptor) (id : Nat) : Job → Prop
  | .ck n _ i => (∃ b, IsCk E now bits env eacts n b) ∧ 1 ≤ i ∧ 3 ≤ i + timeouts acts ∧ ∃ x, .express id x ∈ s.trace ∧ x.name = n
  | .kdk n pre d _ i => (∃ b, IsCk E now bits env eacts n b ∧ IsCkPacket E n b kekPacket d) ∧
      pre = identityOfKey k ++ [kdk] ++ k.drop (k.length - 1) ∧ dictGet k s.kc.tpm = none ∧ 1 ≤ i ∧ 3 ≤ i + timeouts acts ∧
      ∃ x, .express id x ∈ s.trace ∧ x.name = kdkPacket.name

structure SInv (E : EncParams) (D : DecParams) (now : Nat) (bits : Bytes) (env : Env) (eacts : List EAct) (kekPacket kdkPacket : Data) (k : Name) (p : Nat)
    (acts : List DAct) (s : Decryptor) : Prop where
  coh : Coh D.kc true s.kc
  key : dictGet k s.kc.tpm = none ∨ dictGet k s.kc.tpm = some p ∧ (dictGet k s.kc.store.keys).isSome = true
  single : s.outstanding.length ≤ 1
  jobs : ∀ id job, (id, job) ∈ s.outstanding → JobOk E now bits env eacts kekPacket kdkPacket k acts s id job
  errors : ∀ c code, .error c code ∈ s.trace → (code = .ckRetrievalTimeout ∨ code = .kdkRetrievalTimeout) ∧ 3 ≤ timeouts acts
  calls : ∀ c x, .call c x ∈ s.trace → ∃ plain, Encrypts E now bits env eacts plain x
  right : ∀ n b, .retrieved n b ∈ s.trace → IsCk E now bits env eacts n b

theorem timeouts_append (acts : List DAct) (a : DAct) : timeouts (acts ++ [a]) = timeouts acts + (match a with | .timeout _ _ => 1 | _ => 0) := by
  unfold timeouts
  rw [List.countP_append]
  cases a <;> rfl

theorem timeouts_le (acts : List DAct) (a : DAct) : timeouts acts ≤ timeouts (acts ++ [a]) := by
  rw [timeouts_append]; exact Nat.le_add_right _ _

theorem JobOk.mono {acts : List DAct} {a : DAct} {s s' : Decryptor} {L : List DEv} (ht : s'.trace = s.trace ++ L) (hk : s'.kc.tpm = s.kc.tpm)
    {id : Nat} {job : Job} (h : JobOk E now bits env eacts kekPacket kdkPacket k acts s id job) :
    JobOk E now bits env eacts kekPacket kdkPacket k (acts ++ [a]) s' id job := by
  have hl := timeouts_le acts a
  cases job with
  | ck n o i =>
    obtain ⟨h1, h2, h3, x, h4, h5⟩ := h
    exact ⟨h1, h2, by omega, x, by rw [ht]; exact List.mem_append_left _ h4, h5⟩
  | kdk n pre d o i =>
    obtain ⟨h1, h2, h3, h4, h5, x, h6, h7⟩ := h
    exact ⟨h1, h2, by rw [hk]; exact h3, h4, by omega, x, by rw [ht]; exact List.mem_append_left _ h6, h7⟩

variable {acts : List DAct} {s s' : Decryptor}

theorem SInv.next (h : SInv E D now bits env eacts kekPacket kdkPacket k p acts s) (a : DAct) {L : List DEv} (ht : s'.trace = s.trace ++ L)
    (coh : Coh D.kc true s'.kc)
    (key : dictGet k s'.kc.tpm = none ∨ dictGet k s'.kc.tpm = some p ∧ (dictGet k s'.kc.store.keys).isSome = true)
    (single : s'.outstanding.length ≤ 1)
    (jobs : ∀ id job, (id, job) ∈ s'.outstanding → JobOk E now bits env eacts kekPacket kdkPacket k (acts ++ [a]) s' id job)
    (errors : ∀ c code, .error c code ∈ L → (code = .ckRetrievalTimeout ∨ code = .kdkRetrievalTimeout) ∧ 3 ≤ timeouts (acts ++ [a]))
    (calls : ∀ c x, .call c x ∈ L → ∃ plain, Encrypts E now bits env eacts plain x)
    (right : ∀ n b, .retrieved n b ∈ L → IsCk E now bits env eacts n b) : SInv E D now bits env eacts kekPacket kdkPacket k p (acts ++ [a]) s' := by
  have hl := timeouts_le acts a
  refine ⟨coh, key, single, jobs, fun c code hc => ?_, fun c x hc => ?_, fun n b hc => ?_⟩
  · rw [ht] at hc
    rcases List.mem_append.mp hc with hc | hc
    · obtain ⟨h1, h2⟩ := h.errors c code hc
      exact ⟨h1, by omega⟩
    · exact errors c code hc
  · rw [ht] at hc
    exact (List.mem_append.mp hc).elim (h.calls c x) (calls c x)
  · rw [ht] at hc
    exact (List.mem_append.mp hc).elim (h.right n b) (right n b)

theorem SInv.still (h : SInv E D now bits env eacts kekPacket kdkPacket k p acts s) (a : DAct) :
    SInv E D now bits env eacts kekPacket kdkPacket k p (acts ++ [a]) s :=
  h.next a (L := []) (List.append_nil _).symm h.coh h.key h.single (fun id job hj => (h.jobs id job hj).mono (List.append_nil _).symm rfl)
    (by nofun) (by nofun) (by nofun)

/-- A caller for a CK of the producer is told its plain text. -/
theorem answer_right (W : World E D now bits env eacts ops certificate member kekPacket kdkPacket k p) {plain : Bytes} {x : EncryptedContent} {b : Bytes} {c : Nat}
    (hx : Encrypts E now bits env eacts plain x) (hb : IsCk E now bits env eacts (ckOf x) b) : answerTo D b (c, x) = .success c plain := by
  obtain ⟨n, b', iv, h1, h2, h3, h4, h5⟩ := Encrypts.spec W.R hx
  rw [h2] at hb
  cases hb.unique W.R h1
  unfold answerTo
  dsimp only
  rw [h4]
  dsimp only
  rw [h5, W.C.same, Aes.roundtrip W.C.aes]

/-- The CK packet is decrypted with the KDK: all who wait are told. -/
theorem decryptCk_ok (W : World E D now bits env eacts ops certificate member kekPacket kdkPacket k p) {n : Name} {b : Bytes} {d : Data}
    (hd : IsCkPacket E n b kekPacket d) {o : Nat} (hc : Coh D.kc true s.kc) (hp : dictGet k s.kc.tpm = some p) {e : Entry}
    (he : dictGet n s.entries = some e) :
    ∃ s', decryptCk D n d k o s = (s', false) ∧ s'.trace = s.trace ++ .retrieved n b :: e.pending.map (answerTo D b) ∧
      s'.outstanding = s.outstanding ∧ Coh D.kc true s'.kc ∧ Quiet s.kc s'.kc := by
  obtain ⟨wire, content, h1, h2, h3⟩ := W.ckContent hd
  obtain ⟨kc, f1, f2, f3⟩ := KeyChain.findKey_spec hc k
  unfold decryptCk
  rw [h1, Option.map_some, h2]
  dsimp only
  rw [f1, hp]
  dsimp only
  rw [h3]
  dsimp only
  have g1 := fun m => updateEntry_get (n := n) (f := fun e => { e with bits := some b }) (s := { s with kc := kc }) he m
  have gn : dictGet n ((updateEntry n (fun e => { e with bits := some b }) { s with kc := kc }).emit (.retrieved n b)).entries =
      some { e with bits := some b } := (g1 n).trans (if_pos rfl)
  rw [gn]
  dsimp only
  rw [processPending_eq W.raises]
  refine ⟨_, rfl, ?_, rfl, f2, f3⟩
  show (s.trace ++ [_]) ++ _ = _
  rw [List.append_assoc]
  rfl

theorem single_take {α : Type} {id : Nat} {l : List (Nat × α)} {a : α} {rest : List (Nat × α)} (h : Fetch.Fetcher.take id l = some (a, rest))
    (hl : l.length ≤ 1) : rest = [] := by
  have := (Fetch.take_spec h).2.1
  exact List.length_eq_zero_iff.mp (by omega)

/-- Those who wait for a CK are told their plain texts. -/
theorem pending_right (W : World E D now bits env eacts ops certificate member kekPacket kdkPacket k p)
    (h : SInv E D now bits env eacts kekPacket kdkPacket k p acts s) (hi : ∀ c x, (c, x) ∈ l → .call c x ∈ s.trace ∧ ckOf x = n)
    {b : Bytes} (hb : IsCk E now bits env eacts n b) : ∀ ev ∈ List.map (answerTo D b) l, ∃ c plain, ev = .success c plain := by
  intro ev hev
  obtain ⟨⟨c, x⟩, hm, rfl⟩ := List.mem_map.mp hev
  obtain ⟨h1, h2⟩ := hi c x hm
  obtain ⟨plain, h3⟩ := h.calls c x h1
  exact ⟨c, plain, answer_right W h3 (by rw [h2]; exact hb)⟩

theorem step_decrypt (W : World E D now bits env eacts ops certificate member kekPacket kdkPacket k p)
    (h : SInv E D now bits env eacts kekPacket kdkPacket k p acts s) (hI : Inv D none none s) {x : EncryptedContent} {ev : Env} (hev : ev.express = .ok)
    (hx : ∃ plain, Encrypts E now bits env eacts plain x)
    (ho : (∃ c y, .call c y ∈ s.trace ∧ ckOf y = ckOf x) ∨ ∀ c y, .call c y ∈ s.trace → answers s.trace c = 1) :
    SInv E D now bits env eacts kekPacket kdkPacket k p (acts ++ [.decrypt x ev]) (s.step D (.decrypt x ev)) := by
  obtain ⟨plain, hx⟩ := hx
  obtain ⟨n, b, iv, h1, h2, h3, h4, h5⟩ := Encrypts.spec W.R hx
  have hcall : ∀ L : List DEv, (∀ c y, DEv.call c y ∉ L) → ∀ c y, .call c y ∈ DEv.call s.calls x :: L → ∃ plain, Encrypts E now bits env eacts plain y := by
    intro L hL c y hc
    rcases List.mem_cons.mp hc with hc | hc
    · cases hc; exact ⟨plain, hx⟩
    · exact absurd hc (hL c y)
  cases he : dictGet (ckOf x) s.entries with
  | some e =>
    cases hb : e.bits with
    | none =>
      show SInv E D now bits env eacts kekPacket kdkPacket k p _ (decrypt D x ev s).1
      rw [decrypt_dead h3 he hb]
      refine h.next _ (L := [.call s.calls x]) rfl h.coh h.key h.single
        (fun id job hj => ?_) (fun c code hc => by simp at hc) (hcall [] (by nofun)) (fun c code hc => by simp at hc)
      refine JobOk.mono (s := s) (L := [.call s.calls x]) ?_ ?_ (h.jobs id job hj) <;> rfl
    | some b' =>
      obtain ⟨_, _, hr⟩ := (hI.entry _ e he).ready b' hb
      have hck := h.right _ _ hr
      have hans := answer_right (c := s.calls) W hx hck
      have hstep : s.step D (.decrypt x ev) = ({ s with calls := s.calls + 1 }.emit (.call s.calls x)).emit (.success s.calls plain) := by
        show (decrypt D x ev s).1 = _
        unfold decrypt
        dsimp only
        rw [if_neg (fun h => h h3.1), if_neg (fun h => h3.2 (Option.isNone_iff_eq_none.mp h))]
        have he' : dictGet x.keyLocator.keyName ({ s with calls := s.calls + 1 }.emit (.call s.calls x)).entries = some e := he
        rw [he']
        dsimp only
        rw [hb]
        dsimp only
        rw [doDecrypt_eq W.raises, hans]
      have htr : (s.step D (.decrypt x ev)).trace = s.trace ++ [.call s.calls x, .success s.calls plain] := by
        rw [hstep]
        show (s.trace ++ [_]) ++ [_] = _
        rw [List.append_assoc]
        rfl
      refine h.next _ htr (by rw [hstep]; exact h.coh) (by rw [hstep]; exact h.key) (by rw [hstep]; exact h.single)
        (fun id job hj => (h.jobs id job (by rw [hstep] at hj; exact hj)).mono htr (by rw [hstep]; rfl)) ?_ (hcall [_] (by simp)) ?_
      · intro c code hc; simp at hc
      · intro n b hc; simp at hc
  | none =>
    -- nothing is outstanding
    have hout : s.outstanding = [] := by
      rcases ho with ⟨c, y, hc, hy⟩ | ho
      · obtain ⟨plain', hy'⟩ := h.calls c y hc
        obtain ⟨_, _, _, _, _, hw, _⟩ := Encrypts.spec W.R hy'
        have := hI.listed c y hc hw (by nofun)
        rw [hy, he] at this
        nomatch this
      · cases hl : s.outstanding with
        | nil => rfl
        | cons j rest =>
          have hj : (j.1, j.2) ∈ s.outstanding := by rw [hl]; exact List.mem_cons_self
          obtain ⟨e, g1, g2⟩ := hI.link j.1 j.2 hj
          have hpos := (hI.idPos _ hj).1
          have hE := hI.entry _ e g1
          obtain ⟨_, f2, job, y, rst, _, _, f5⟩ := hE.fetching (by rw [g2]; exact hpos)
          have hm : (Job.owner job, y) ∈ e.pending := by rw [f5]; exact List.mem_cons_self
          have := ho _ _ (hE.calls _ _ hm).1
          rw [f2 _ hm] at this
          nomatch this
    have hstep : ∃ s', s.step D (.decrypt x ev) = s' ∧
        s'.trace = s.trace ++ [.call s.calls x, .express s.nextId { name := ckOf x, mustBeFresh := false, maxSuffix := none }] ∧
        s'.outstanding = s.outstanding ++ [(s.nextId, .ck (ckOf x) s.calls 3)] ∧ s'.kc = s.kc := by
      refine ⟨_, rfl, ?_⟩
      show (decrypt D x ev s).1.trace = _ ∧ (decrypt D x ev s).1.outstanding = _ ∧ (decrypt D x ev s).1.kc = _
      unfold decrypt
      dsimp only
      rw [if_neg (fun h => h h3.1), if_neg (fun h => h3.2 (Option.isNone_iff_eq_none.mp h))]
      have he' : dictGet x.keyLocator.keyName ({ s with calls := s.calls + 1 }.emit (.call s.calls x)).entries = none := he
      rw [he']
      dsimp only
      unfold fetchCk expressFor
      dsimp only
      rw [hev]
      refine ⟨?_, rfl, rfl⟩
      show (s.trace ++ [_]) ++ [_] = _
      rw [List.append_assoc]
      rfl
    obtain ⟨s', e0, e1, e2, e3⟩ := hstep
    rw [e0]
    refine h.next _ e1 (by rw [e3]; exact h.coh) (by rw [e3]; exact h.key) (by rw [e2, hout]; exact Nat.le_refl 1) ?_ ?_ (hcall [_] (by simp)) ?_
    · intro id job hj
      rw [e2, hout, List.nil_append, List.mem_singleton] at hj
      cases hj
      refine ⟨⟨b, by rw [h2]; exact h1⟩, by decide, by omega, { name := ckOf x, mustBeFresh := false, maxSuffix := none }, ?_, rfl⟩
      rw [e1]
      simp
    · intro c code hc; simp at hc
    · intro n b hc; simp at hc

theorem step_express (W : World E D now bits env eacts ops certificate member kekPacket kdkPacket k p)
    (h : SInv E D now bits env eacts kekPacket kdkPacket k p acts s) (a : DAct) {n : Name} {o : Nat} {i : Interest} {job : Job} {ev : Env}
    (hev : ev.express = .ok) {s0 : Decryptor} (ht : s0.trace = s.trace) (ho : s0.outstanding = []) (hq : Quiet s.kc s0.kc) (hc : Coh D.kc true s0.kc)
    (hj : ∀ s', s'.kc = s0.kc → .express s0.nextId i ∈ s'.trace → JobOk E now bits env eacts kekPacket kdkPacket k (acts ++ [a]) s' s0.nextId job) :
    SInv E D now bits env eacts kekPacket kdkPacket k p (acts ++ [a]) (expressFor D n o i job ev s0).1 := by
  have e1 : (expressFor D n o i job ev s0).1.trace = s.trace ++ [.express s0.nextId i] := by
    unfold expressFor
    dsimp only
    rw [hev]
    show s0.trace ++ _ = _
    rw [ht]
  have e2 : (expressFor D n o i job ev s0).1.outstanding = [(s0.nextId, job)] := by
    unfold expressFor
    dsimp only
    rw [hev]
    show s0.outstanding ++ _ = _
    rw [ho]
    rfl
  have e3 : (expressFor D n o i job ev s0).1.kc = s0.kc := by
    unfold expressFor
    dsimp only
    rw [hev]
    rfl
  refine h.next _ e1 (by rw [e3]; exact hc) ?_ (by rw [e2]; exact Nat.le_refl 1) ?_ ?_ ?_ ?_
  · rw [e3, hq.tpm, hq.store]; exact h.key
  · intro id job' hm
    rw [e2, List.mem_singleton] at hm
    cases hm
    exact hj _ e3 (by rw [e1]; simp)
  all_goals intro c code hc; simp at hc

theorem step_retrieved (W : World E D now bits env eacts ops certificate member kekPacket kdkPacket k p)
    (h : SInv E D now bits env eacts kekPacket kdkPacket k p acts s) (a : DAct) {n : Name} {o : Nat} {b : Bytes} {d : Data}
    (hd : IsCkPacket E n b kekPacket d) (hck : IsCk E now bits env eacts n b) {s0 : Decryptor} (ho : Open D n o s0)
    (ht : s0.trace = s.trace) (hout : s0.outstanding = []) (hc : Coh D.kc true s0.kc) (hp : dictGet k s0.kc.tpm = some p)
    (hs : (dictGet k s0.kc.store.keys).isSome = true) (handler : Do) :
    SInv E D now bits env eacts kekPacket kdkPacket k p (acts ++ [a]) (tryDo (fun _ => decryptCk D n d k o s0) handler s').1 := by
  obtain ⟨e, x, rest, he, h1, h2, h3, h4⟩ := ho.entry
  obtain ⟨s2, g1, g2, g3, g4, g5⟩ := decryptCk_ok W hd (o := o) hc hp he
  unfold tryDo
  rw [g1]
  dsimp only
  have hright := pending_right (n := n) W h (l := e.pending) (fun c x hx => by
    obtain ⟨f1, _, f3⟩ := (ho.inv.entry _ e he).calls c x hx
    rw [ht] at f1
    exact ⟨f1, f3⟩) hck
  have hL : ∀ ev ∈ DEv.retrieved n b :: e.pending.map (answerTo D b), ev = .retrieved n b ∨ ∃ c plain, ev = .success c plain := by
    intro ev hev
    exact (List.mem_cons.mp hev).imp id (hright ev)
  rw [ht] at g2
  refine h.next _ g2 g4 (Or.inr ?_) (by rw [g3, hout]; exact Nat.zero_le _) ?_ ?_ ?_ ?_
  · rw [g5.tpm, g5.store]; exact ⟨hp, hs⟩
  · intro id job hm
    rw [g3, hout] at hm
    cases hm
  · intro c code hm
    rcases hL _ hm with hm | ⟨_, _, hm⟩ <;> cases hm
  · intro c code hm
    rcases hL _ hm with hm | ⟨_, _, hm⟩ <;> cases hm
  · intro m b' hm
    rcases hL _ hm with hm | ⟨_, _, hm⟩ <;> cases hm
    exact hck

theorem step_data (W : World E D now bits env eacts ops certificate member kekPacket kdkPacket k p)
    (h : SInv E D now bits env eacts kekPacket kdkPacket k p acts s) (hI : Inv D none none s) {id : Nat} {d : Data} {ev : Env} (hev : ev.express = .ok)
    (hd : Packet E now bits env eacts kdkPacket d) (hn : ∀ i, .express id i ∈ s.trace → i.name <+: d.name) :
    SInv E D now bits env eacts kekPacket kdkPacket k p (acts ++ [.data id d ev]) (s.step D (.data id d ev)) := by
  obtain ⟨kid, hkid, hlast⟩ := keyName_split W.valid
  unfold step
  dsimp only
  split
  · next n o i rest ht =>
    have hrest := single_take ht h.single
    have ho := take_open hI ht
    obtain ⟨⟨b, hck⟩, _, _, y, hy1, hy2⟩ := h.jobs _ _ (Fetch.take_spec ht).1
    have hpk := ck_answer W.R W.sep hck hd (by rw [← hy2]; exact hn y hy1)
    have hname : d.name = n ++ [encryptedBy] ++ kekName k := by rw [hpk.1, W.kekName.1]
    obtain ⟨kc, g1, g2, g3⟩ := kdkExists_spec W.C.sound h.coh W.valid
    have gk : kdkExists D (identityOfKey k) k (setPending n 0 { s with outstanding := rest }).kc = (.ok (dictGet k s.kc.store.keys).isSome, kc) := g1
    unfold onCkData
    cases hk : (dictGet k s.kc.store.keys).isSome with
    | true =>
      rw [hk] at gk
      have := step_retrieved (s' := { s with outstanding := rest }) W h (.data id d ev) hpk hck (ho.kc kc) rfl hrest g2
        (by
          show dictGet k kc.tpm = _
          rw [g3.tpm]
          rcases h.key with hh | hh
          · rw [h.coh.unstored hh] at hk; nomatch hk
          · exact hh.1) (by show (dictGet k kc.store.keys).isSome = true; rw [g3.store]; exact hk) (error D o .general)
      unfold tryDo at this ⊢
      dsimp only
      rw [hname, extract_kek W.valid]
      dsimp only
      rw [gk]
      exact this
    | false =>
      rw [hk] at gk
      have hnone : dictGet k s.kc.tpm = none := by
        rcases h.key with hh | hh
        · exact hh
        · rw [hh.2] at hk; nomatch hk
      have := step_express (n := n) (o := o) (s0 := { (setPending n 0 { s with outstanding := rest }) with kc := kc }) W h (.data id d ev) hev
        (i := { name := (identityOfKey k ++ [kdk] ++ k.drop (k.length - 1)) ++ [encryptedBy] ++ D.credentials, mustBeFresh := true, maxSuffix := some 1 })
        (job := .kdk n (identityOfKey k ++ [kdk] ++ k.drop (k.length - 1)) d o 3) rfl hrest g3 g2 (by
          intro s' hs' hx
          refine ⟨⟨b, hck, hpk⟩, rfl, ?_, by decide, by omega, _, hx, ?_⟩
          · rw [hs']
            show dictGet k kc.tpm = none
            rw [g3.tpm]
            exact hnone
          · rw [W.kdkName])
      unfold tryDo
      dsimp only
      rw [hname, extract_kek W.valid]
      dsimp only
      rw [gk]
      dsimp only
      unfold fetchKdk
      split
      · next s' e =>
        have : (expressFor D n o { name := (identityOfKey k ++ [kdk] ++ k.drop (k.length - 1)) ++ [encryptedBy] ++ D.credentials, mustBeFresh := true, maxSuffix := some 1 }
          (.kdk n (identityOfKey k ++ [kdk] ++ k.drop (k.length - 1)) d o 3) ev { (setPending n 0 { s with outstanding := rest }) with kc := kc }).2 = true := by rw [e]
        unfold expressFor at this
        dsimp only at this
        rw [hev] at this
        nomatch this
      · next s' e =>
        rw [e] at this
        exact this
  · next n pre ckd o i rest ht =>
    have hrest := single_take ht h.single
    have ho := take_open hI ht
    obtain ⟨⟨b, hck, hpk⟩, hpre, hnone, _, _, y, hy1, hy2⟩ := h.jobs _ _ (Fetch.take_spec ht).1
    have hkd : d = kdkPacket := by
      rcases hd with hd | hd
      · exact absurd (by rw [← hy2]; exact hn y hy1) (W.sep.2 d hd)
      · exact hd
    have hk := W.key
    subst hkd
    obtain ⟨kc, g1, g2, g3, g4⟩ := importKdk_ok W.C W.M (by rw [← hk]; exact W.private_) W.content (by rw [← hk]; exact W.valid) ev h.coh (by rw [← hk]; exact hnone)
    rw [← hk] at g3 g4
    have gk : importKdk D d ev (setPending n 0 { s with outstanding := rest }).kc = (.ok none, kc) := g1
    have hkey : kdkKeyName pre = k := by
      rw [hpre, hlast, List.append_assoc]
      exact (kdkKeyName_eq _ _).trans hkid.symm
    have := step_retrieved (s' := { s with outstanding := rest }) W h (.data id d ev) hpk hck (ho.kc kc) rfl hrest g2 g3 g4 (error D o .general)
    unfold onKdkData
    unfold tryDo at this ⊢
    dsimp only
    rw [gk, hkey]
    exact this
  · exact h.still _

theorem step_timeout (W : World E D now bits env eacts ops certificate member kekPacket kdkPacket k p)
    (h : SInv E D now bits env eacts kekPacket kdkPacket k p acts s) {id : Nat} {ev : Env} (hev : ev.express = .ok) :
    SInv E D now bits env eacts kekPacket kdkPacket k p (acts ++ [.timeout id ev]) (s.step D (.timeout id ev)) := by
  have hto : timeouts (acts ++ [.timeout id ev]) = timeouts acts + 1 := timeouts_append _ _
  have fail : ∀ (o : Nat) (code : Code) (s0 : Decryptor), s0.trace = s.trace → s0.kc = s.kc → s0.outstanding = [] →
      (code = .ckRetrievalTimeout ∨ code = .kdkRetrievalTimeout) → 2 ≤ timeouts acts →
      SInv E D now bits env eacts kekPacket kdkPacket k p (acts ++ [.timeout id ev]) (error D o code s0).1 := by
    intro o code s0 e1 e2 e3 hcode h2
    refine h.next (s' := s0.emit (.error o code)) _ (L := [.error o code]) (by show s0.trace ++ _ = _; rw [e1]) (by show Coh _ _ s0.kc; rw [e2]; exact h.coh)
      (by show dictGet k s0.kc.tpm = _ ∨ _; rw [show (s0.emit (.error o code)).kc = s.kc from e2, e2]; exact h.key) (by show s0.outstanding.length ≤ 1; rw [e3]; exact Nat.zero_le _) ?_ ?_ ?_ ?_
    · intro id job hm
      rw [show (s0.emit (.error o code)).outstanding = [] from e3] at hm
      cases hm
    · intro c code' hm
      simp only [List.mem_singleton, DEv.error.injEq] at hm
      obtain ⟨_, rfl⟩ := hm
      exact ⟨hcode, by omega⟩
    · intro c x hm; simp at hm
    · intro c x hm; simp at hm
  unfold step
  dsimp only
  split
  · next job rest ht =>
    have hrest := single_take ht h.single
    have hj := h.jobs _ _ (Fetch.take_spec ht).1
    unfold onTimeout
    cases job with
    | ck n o i =>
      obtain ⟨h1, h2, h3, _⟩ := hj
      dsimp only
      split
      · next hi =>
        refine step_express W h (.timeout id ev) hev rfl hrest (Quiet.refl _) h.coh ?_
        intro s' hs' hx
        exact ⟨h1, by omega, by omega, _, hx, rfl⟩
      · exact fail o _ _ rfl rfl hrest (.inl rfl) (by omega)
    | kdk n pre d o i =>
      obtain ⟨h1, h2, h3, h4, h5, _⟩ := hj
      dsimp only
      split
      · next hi =>
        refine step_express W h (.timeout id ev) hev rfl hrest (Quiet.refl _) h.coh ?_
        intro s' hs' hx
        refine ⟨h1, h2, ?_, by omega, by omega, _, hx, ?_⟩
        · rw [hs']; exact h3
        · rw [h2, W.kdkName]
      · exact fail o _ _ rfl rfl hrest (.inr rfl) (by omega)
  · exact h.still _

end Decryptor
end Nac
end PyNDN
