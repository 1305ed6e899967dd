import Verif.Lemmas.NacSystemRun
/-
C70: a system with name-based access control: what a producer encrypts with a CK, a member of the group decrypts.
-/
namespace PyNDN
namespace Nac
open Spec.Nac
open Encrypt (EncryptedContent SafeBag)
open PSync (dictGet dictSet)
open KeyChain (KC K Coh Quiet keyOfCert identityOfKey isValidKeyName)

/-- C70: the padding is removed; it makes whole blocks, and there is always some. -/
theorem C70_padding (plain : Bytes) : unpad (pad plain) = some plain ∧ (pad plain).length % 16 = 0 ∧
    plain.length < (pad plain).length ∧ (pad plain).length ≤ plain.length + 16 := ⟨unpad_pad plain, pad_length plain⟩

/-- C70: what `encrypt` of the AES algorithm makes, `decrypt` opens, for all keys, initial vectors and plain texts. -/
theorem C70_aes (A : Aes) (h : ∀ key iv plain, plain.length % 16 = 0 → A.decrypt key iv (A.encrypt key iv plain) = some plain) (key iv plain : Bytes) :
    A.decryptCbc key iv (some (A.encryptCbc key iv plain)) = some plain := Aes.roundtrip h key iv plain

/-- C70: a byte of the secret of `addMember` is an ASCII character.  It is 0 only for the random byte 128. -/
theorem C70_secret (random : UInt8) : (secretByte random).toNat < 128 ∧ (secretByte random = 0 ↔ random = 128) := by
  have h : ∀ n : Fin 256, (secretByte (UInt8.ofNat n)).toNat < 128 ∧ (secretByte (UInt8.ofNat n) = 0 ↔ UInt8.ofNat n = 128) := by decide +kernel
  have := h ⟨random.toNat, random.toNat_lt⟩
  rwa [show UInt8.ofNat (⟨random.toNat, random.toNat_lt⟩ : Fin 256).val = random from UInt8.ofNat_toNat] at this

/-- The comment in the code says that the characters are 1 to 127: the secret can have a 0. -/
theorem C70_secret_zero : secretByte 128 = 0 := by decide

/-- C70: the decryptor finds the key and asks for the KDK under the name that the access manager gives to the KDK packet of the member. -/
theorem C70_names (nacKey memberKey ckName : Name) (h : isValidKeyName nacKey = true) :
    ∃ kdkPrefix, Decryptor.extractKdkInfo (ckName ++ [encryptedBy] ++ kekName nacKey) ckName = .ok (kdkPrefix, identityOfKey nacKey, nacKey) ∧
      kdkPrefix ++ [encryptedBy] ++ memberKey = kdkName nacKey memberKey ∧ Decryptor.kdkKeyName kdkPrefix = nacKey := by
  obtain ⟨kid, h1, h2⟩ := keyName_split h
  refine ⟨_, extract_kek h ckName, rfl, ?_⟩
  rw [h2, List.append_assoc]
  exact (Decryptor.kdkKeyName_eq _ _).trans h1.symm

namespace Decryptor

variable {E : EncParams} {D : DecParams} {now : Nat} {bits : Bytes} {env : Env} {eacts : List EAct} {ops : List KeyChain.Op}
  {certificate member kekPacket kdkPacket : Data}

theorem untabled_of_network {pk : Data → Prop} {acts : List DAct} (h : Network D pk acts) : UntabledD acts := by
  intro a ha e he
  unfold Untabled
  rw [(h.calm a ha).2.2 e he]
  nofun

theorem Network.left {pk : Data → Prop} {acts : List DAct} {a : DAct} (h : Network D pk (acts ++ [a])) : Network D pk acts :=
  ⟨fun x id d ev b e => h.honest x id d ev (b ++ [a]) (by rw [e]; simp), fun x hx => h.calm x (List.mem_append_left _ hx)⟩

theorem OneAtATime.left {acts : List DAct} {a : DAct} (h : OneAtATime D (acts ++ [a])) : OneAtATime D acts :=
  fun x y ev b e => h x y ev (b ++ [a]) (by rw [e]; simp)

theorem run_sinv {k : Name} {p : Nat} (W : World E D now bits env eacts ops certificate member kekPacket kdkPacket k p) (acts : List DAct)
    (hnet : Network D (Packet E now bits env eacts kdkPacket) acts) (hone : OneAtATime D acts)
    (hcalls : ∀ x ev, .decrypt x ev ∈ acts → ∃ plain, Encrypts E now bits env eacts plain x) :
    SInv E D now bits env eacts kekPacket kdkPacket k p acts (run D acts) := by
  refine run_induction D (Q := fun acts s => Network D (Packet E now bits env eacts kdkPacket) acts → OneAtATime D acts →
    (∀ x ev, .decrypt x ev ∈ acts → ∃ plain, Encrypts E now bits env eacts plain x) → SInv E D now bits env eacts kekPacket kdkPacket k p acts s)
    ?_ ?_ acts hnet hone hcalls
  · intro _ _ _
    exact ⟨KeyChain.coh_empty, .inl rfl, Nat.zero_le _, by nofun, by nofun, by nofun, by nofun⟩
  · intro acts a ih h1 h2 h3
    have h := ih (Network.left h1) (OneAtATime.left h2) (fun x ev hx => h3 x ev (List.mem_append_left _ hx))
    have hI := run_inv W.raises acts (untabled_of_network (Network.left h1))
    have hc := h1.calm a (by simp)
    cases a with
    | decrypt x ev => exact step_decrypt W h hI (hc.2.2 ev rfl) (h3 x ev (by simp)) (h2 acts x ev [] rfl)
    | data id d ev =>
      obtain ⟨g1, g2⟩ := h1.honest acts id d ev [] rfl
      exact step_data W h hI (hc.2.2 ev rfl) g1 g2
    | timeout id ev => exact step_timeout W h (hc.2.2 ev rfl)
    | nack id => exact absurd rfl (hc.2.1 id)
    | shutdown => exact absurd rfl hc.1

theorem world (C : Crypto E D member) (M : Managed E D ops certificate member kekPacket kdkPacket) (R : Produces E now bits env eacts kekPacket)
    (hsep : Separate E now bits env eacts kdkPacket) (hr : ∀ c, D.raises c = false) :
    ∃ k p, World E D now bits env eacts ops certificate member kekPacket kdkPacket k p := by
  obtain ⟨p, h1, h2, h3⟩ := Managed.key C M
  exact ⟨_, p, C, M, R, hsep, hr, rfl, h1, h2, h3⟩

/-- C70: the member of a group calls `decrypt` with contents that the producer encrypted, in any order, with any of the CKs; and the network
brings the packets of the producer and of the access manager, at any time, or lets Interests time out.  Then a caller is told of an
error only after three timeouts; a caller who is told a plain text is told the plain text that was encrypted; and, with fewer than
three timeouts, when no Interest is outstanding each caller was told it. -/
theorem C70_member (C : Crypto E D member) (M : Managed E D ops certificate member kekPacket kdkPacket) (R : Produces E now bits env eacts kekPacket)
    (hsep : Separate E now bits env eacts kdkPacket) (hr : ∀ c, D.raises c = false) (acts : List DAct)
    (hnet : Network D (Packet E now bits env eacts kdkPacket) acts) (hone : OneAtATime D acts)
    (hcalls : ∀ x ev, .decrypt x ev ∈ acts → ∃ plain, Encrypts E now bits env eacts plain x) :
    let s := run D acts
    (∀ c code, .error c code ∈ s.trace → (code = .ckRetrievalTimeout ∨ code = .kdkRetrievalTimeout) ∧ 3 ≤ timeouts acts) ∧
    (∀ c x plain, .call c x ∈ s.trace → Encrypts E now bits env eacts plain x → ∀ told, .success c told ∈ s.trace → told = plain) ∧
    (timeouts acts < 3 → s.outstanding = [] →
      ∀ c x plain, .call c x ∈ s.trace → Encrypts E now bits env eacts plain x → .success c plain ∈ s.trace) := by
  intro s
  obtain ⟨k, p, W⟩ := world C M R hsep hr
  have h := run_sinv W acts hnet hone hcalls
  have hu := untabled_of_network hnet
  have hI := run_inv hr acts hu
  have right : ∀ c x plain, .call c x ∈ s.trace → Encrypts E now bits env eacts plain x → ∀ told, .success c told ∈ s.trace → told = plain := by
    intro c x plain hc hx told ht
    obtain ⟨x', b, iv, h1, h2, h3, h4⟩ := hI.right c told ht
    cases hI.unique c x x' hc h1
    have := answer_right (c := c) W hx (h.right _ _ h2)
    unfold answerTo at this
    dsimp only at this
    rw [h3] at this
    dsimp only at this
    rw [h4] at this
    cases this
    rfl
  refine ⟨h.errors, right, fun hto ho c x plain hc hx => ?_⟩
  have noError : ∀ c code, .error c code ∉ s.trace := fun c code he => by
    have := (h.errors c code he).2
    omega
  have h1 : answers s.trace c = 1 := by
    refine Decidable.byContradiction fun ha => ?_
    obtain ⟨_, _, hh | ⟨c', x', code, _, _, _, hh⟩⟩ := C69_answered_partial D hr acts hu hc ha
    · obtain ⟨id, job, hj, _⟩ := hh
      rw [show (run D acts).outstanding = [] from ho] at hj
      cases hj
    · exact noError _ _ hh
  obtain ⟨ev, he1, he2⟩ : ∃ ev ∈ s.trace, isAnswer c ev = true := List.countP_pos_iff.mp (by unfold answers at h1; omega)
  unfold isAnswer at he2
  split at he2
  · next c' plain' =>
    have := of_decide_eq_true he2
    subst this
    rw [← right _ x plain hc hx plain' he1]
    exact he1
  · next c' code => exact absurd he1 (noError _ _)
  · nomatch he2

/-- What comes of an answer: at most one further Interest. -/
theorem out_data {k : Name} {p : Nat} (W : World E D now bits env eacts ops certificate member kekPacket kdkPacket k p) {acts : List DAct} {s : Decryptor}
    (h : SInv E D now bits env eacts kekPacket kdkPacket k p acts s) (hI : Inv D none none s) {id : Nat} {job : Job} (hout : s.outstanding = [(id, job)])
    {d : Data} {ev : Env} (hev : ev.express = .ok)
    (hd : Packet E now bits env eacts kdkPacket d) (hn : ∀ i, .express id i ∈ s.trace → i.name <+: d.name) :
    (s.step D (.data id d ev)).outstanding = [] ∨
      (∃ n o i, job = .ck n o i) ∧ ∃ id' n pre d' o i, (s.step D (.data id d ev)).outstanding = [(id', .kdk n pre d' o i)] := by
  obtain ⟨kid, hkid, hlast⟩ := keyName_split W.valid
  have htake : Fetch.Fetcher.take id s.outstanding = some (job, []) := by
    rw [hout]
    unfold Fetch.Fetcher.take
    rw [if_pos rfl]
  have hmem : (id, job) ∈ s.outstanding := by rw [hout]; exact List.mem_singleton.mpr rfl
  have ho := take_open hI htake
  have finish : ∀ {n b d o} {s0 s1 : Decryptor} (handler : Do), IsCkPacket E n b kekPacket d → Open D n o s0 → s0.outstanding = [] → Coh D.kc true s0.kc →
      dictGet k s0.kc.tpm = some p → (tryDo (fun _ => decryptCk D n d k o s0) handler s1).1.outstanding = [] := by
    intro n b d o s0 s1 handler f1 f2 f3 f4 f5
    obtain ⟨e, x, rest, he, _⟩ := f2.entry
    obtain ⟨s2, g1, g2, g3, g4, g5⟩ := decryptCk_ok W f1 (o := o) f4 f5 he
    unfold tryDo
    rw [g1]
    exact g3.trans f3
  unfold step
  dsimp only
  rw [htake]
  cases job with
  | ck n o i =>
    dsimp only
    obtain ⟨⟨b, hck⟩, _, _, y, hy1, hy2⟩ := h.jobs _ _ hmem
    have hpk := ck_answer W.R W.sep hck hd (by rw [← hy2]; exact hn y hy1)
    have hname : d.name = n ++ [encryptedBy] ++ kekName k := by rw [hpk.1, W.kekName.1]
    obtain ⟨kc, g1, g2, g3⟩ := kdkExists_spec W.C.sound h.coh W.valid
    have gk : kdkExists D (identityOfKey k) k (setPending n 0 { s with outstanding := [] }).kc = (.ok (dictGet k s.kc.store.keys).isSome, kc) := g1
    unfold onCkData
    cases hk : (dictGet k s.kc.store.keys).isSome with
    | true =>
      rw [hk] at gk
      left
      have := finish (s1 := { s with outstanding := [] }) (error D o .general) hpk (ho.kc kc) rfl g2 (by
          show dictGet k kc.tpm = _
          rw [g3.tpm]
          rcases h.key with hh | hh
          · rw [h.coh.unstored hh] at hk; nomatch hk
          · exact hh.1)
      unfold tryDo at this ⊢
      dsimp only
      rw [hname, extract_kek W.valid]
      dsimp only
      rw [gk]
      exact this
    | false =>
      rw [hk] at gk
      right
      refine ⟨⟨n, o, i, rfl⟩, ?_⟩
      unfold tryDo
      dsimp only
      rw [hname, extract_kek W.valid]
      dsimp only
      rw [gk]
      dsimp only
      unfold fetchKdk expressFor
      dsimp only
      rw [hev]
      exact ⟨_, _, _, _, _, _, rfl⟩
  | kdk n pre ckd o i =>
    dsimp only
    left
    obtain ⟨⟨b, hck, hpk⟩, hpre, hnone, _, _, y, hy1, hy2⟩ := h.jobs _ _ hmem
    have hkd : d = kdkPacket := by
      rcases hd with hd | hd
      · exact absurd (by rw [← hy2]; exact hn y hy1) (W.sep.2 d hd)
      · exact hd
    have hk := W.key
    subst hkd
    obtain ⟨kc, g1, g2, g3, g4⟩ := importKdk_ok W.C W.M (by rw [← hk]; exact W.private_) W.content (by rw [← hk]; exact W.valid) ev h.coh (by rw [← hk]; exact hnone)
    rw [← hk] at g3 g4
    have gk : importKdk D d ev (setPending n 0 { s with outstanding := [] }).kc = (.ok none, kc) := g1
    have hkey : kdkKeyName pre = k := by
      rw [hpre, hlast, List.append_assoc]
      exact (kdkKeyName_eq _ _).trans hkid.symm
    have := finish (s1 := { s with outstanding := [] }) (error D o .general) hpk (ho.kc kc) rfl g2 g3
    unfold onKdkData
    unfold tryDo at this ⊢
    dsimp only
    rw [gk, hkey]
    exact this

/-- C70: at most one Interest is outstanding, and two packets are enough: after an answer to it, and an answer to the Interest that
follows, if one does, no Interest is outstanding: by C70_member each caller was told. -/
theorem C70_two_packets (C : Crypto E D member) (M : Managed E D ops certificate member kekPacket kdkPacket) (R : Produces E now bits env eacts kekPacket)
    (hsep : Separate E now bits env eacts kdkPacket) (hr : ∀ c, D.raises c = false) (acts : List DAct) (hone : OneAtATime D acts)
    (hcalls : ∀ x ev, .decrypt x ev ∈ acts → ∃ plain, Encrypts E now bits env eacts plain x)
    (hnet0 : Network D (Packet E now bits env eacts kdkPacket) acts) :
    (run D acts).outstanding.length ≤ 1 ∧ ∀ id job, (id, job) ∈ (run D acts).outstanding → ∀ d ev,
    Network D (Packet E now bits env eacts kdkPacket) (acts ++ [.data id d ev]) →
    (run D (acts ++ [.data id d ev])).outstanding = [] ∨
    ∃ id' job', (run D (acts ++ [.data id d ev])).outstanding = [(id', job')] ∧ ∀ d' ev',
      Network D (Packet E now bits env eacts kdkPacket) (acts ++ [.data id d ev] ++ [.data id' d' ev']) →
      (run D (acts ++ [.data id d ev] ++ [.data id' d' ev'])).outstanding = [] := by
  obtain ⟨k, p, W⟩ := world C M R hsep hr
  have h := run_sinv W acts hnet0 hone hcalls
  have hI := run_inv hr acts (untabled_of_network hnet0)
  refine ⟨h.single, fun id job hm d ev hnet => ?_⟩
  have hout : (run D acts).outstanding = [(id, job)] := by
    have hs := h.single
    cases hl : (run D acts).outstanding with
    | nil => rw [hl] at hm; cases hm
    | cons a l =>
      rw [hl] at hs hm
      have : l = [] := List.length_eq_zero_iff.mp (Nat.le_zero.mp (Nat.le_of_succ_le_succ hs))
      subst this
      rw [List.mem_singleton.mp hm]
  obtain ⟨g1, g2⟩ := hnet.honest acts id d ev [] rfl
  have hone1 : OneAtATime D (acts ++ [.data id d ev]) := by
    intro a x env' b e
    rcases List.eq_nil_or_concat b with rfl | ⟨b', y, rfl⟩
    · have := List.append_inj_right' e rfl
      cases this
    · rw [List.concat_eq_append] at e
      have e' : acts ++ [DAct.data id d ev] = (a ++ .decrypt x env' :: b') ++ [y] := by rw [e]; simp
      exact hone a x env' b' (List.append_inj_left' e' rfl)
  have hcalls1 : ∀ x ev', .decrypt x ev' ∈ acts ++ [.data id d ev] → ∃ plain, Encrypts E now bits env eacts plain x := by
    intro x ev' hx
    rcases List.mem_append.mp hx with hx | hx
    · exact hcalls x ev' hx
    · simp at hx
  have h1 := run_sinv W (acts ++ [.data id d ev]) hnet hone1 hcalls1
  have hI1 := run_inv hr (acts ++ [.data id d ev]) (untabled_of_network hnet)
  have hev := (hnet.calm (.data id d ev) (by simp)).2.2 ev rfl
  rw [run_snoc] at h1 hI1 ⊢
  rcases out_data W h hI hout hev g1 g2 with e | ⟨_, id', n, pre, d', o, i, e⟩
  · exact .inl e
  · refine .inr ⟨id', _, e, fun d'' ev'' hnet2 => ?_⟩
    obtain ⟨f1, f2⟩ := hnet2.honest (acts ++ [.data id d ev]) id' d'' ev'' [] rfl
    rw [run_snoc] at f2
    have hev2 := (hnet2.calm (.data id' d'' ev'') (by simp)).2.2 ev'' rfl
    rw [run_snoc, run_snoc]
    rcases out_data W h1 hI1 e hev2 f1 f2 with e2 | ⟨⟨_, _, _, hj⟩, _⟩
    · exact e2
    · cases hj

end Decryptor
end Nac
end PyNDN
