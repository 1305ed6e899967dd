import Verif.Spec.NacSystem
import Verif.Lemmas.NacDead
import Verif.Lemmas.NacProvenance
import Verif.Lemmas.KeyHistory
import Verif.Props.NacPublish
import Verif.Props.NacDecryptor
import Verif.Props.Encrypted
/-
A system with name-based access control: what the parts do for each other.
-/
namespace PyNDN
namespace Nac
open Spec.Nac
open Spec (tlv flat nonNeg opt DataOk SameData CanonicalName Canonical)
open Spec.Encrypt (keptV2 written fieldsV2)
open Spec.KeyChain (Sound Disciplined Proper Consistent)
open Encrypt (EncryptedContent SafeBag)
open PSync (dictGet dictSet)
open KeyChain (KC K Coh Quiet After keyOfCert identityOfKey checkCert importSafeBag isValidKeyName)

/-! ### AES -/

theorem pad_length (p : Bytes) : (pad p).length % 16 = 0 ∧ p.length < (pad p).length ∧ (pad p).length ≤ p.length + 16 := by
  unfold pad
  rw [List.length_append, List.length_replicate]
  omega

theorem unpad_pad (p : Bytes) : unpad (pad p) = some p := by
  unfold pad unpad
  dsimp only
  obtain ⟨k, hk⟩ : ∃ k, 16 - p.length % 16 = k + 1 := ⟨15 - p.length % 16, by omega⟩
  have hk2 : k + 1 ≤ 16 := by omega
  rw [hk, List.replicate_succ', ← List.append_assoc, List.getLast?_append, List.getLast?_singleton]
  have hb : (UInt8.ofNat (k + 1)).toNat = k + 1 := by
    rw [UInt8.toNat_ofNat']
    omega
  have hne : UInt8.ofNat (k + 1) ≠ 0 := by
    intro h
    rw [h] at hb
    exact absurd hb (by simp)
  dsimp only [Option.or, Option.some_or]
  rw [if_neg hne, hb]
  congr 1
  rw [List.length_append, List.length_append, List.length_replicate, List.length_singleton, List.append_assoc]
  rw [show p.length + k + 1 - (k + 1) = p.length by omega]
  exact List.take_left

theorem Aes.roundtrip {A : Aes} (h : ∀ key iv plain, plain.length % 16 = 0 → A.decrypt key iv (A.encrypt key iv plain) = some plain)
    (key iv plain : Bytes) : A.decryptCbc key iv (some (A.encrypt key iv (pad plain))) = some plain := by
  unfold Aes.decryptCbc
  dsimp only
  rw [h key iv _ (pad_length plain).1]
  exact unpad_pad plain

/-! ### The packets of the access manager -/

theorem keyName_split {k : Name} (h : isValidKeyName k = true) : ∃ kid, k = identityOfKey k ++ [Validator.keyComponent, kid] ∧
    k.drop (k.length - 1) = [kid] := by
  unfold isValidKeyName at h
  rw [Bool.and_eq_true, decide_eq_true_eq] at h
  obtain ⟨hl, ha⟩ := h
  have h2 : k.length - 2 < k.length := by omega
  have h1 : k.length - 1 < k.length := by omega
  rw [List.getElem?_eq_getElem h2, Option.any_some, component_equals_iff] at ha
  refine ⟨k[k.length - 1], ?_, ?_⟩
  · unfold identityOfKey
    rw [← ha]
    conv => lhs; rw [← List.take_append_drop (k.length - 2) k, List.drop_eq_getElem_cons h2, show k.length - 2 + 1 = k.length - 1 by omega,
      List.drop_eq_getElem_cons h1, show k.length - 1 + 1 = k.length by omega, List.drop_length]
  · rw [List.drop_eq_getElem_cons h1, show k.length - 1 + 1 = k.length by omega, List.drop_length]

theorem extract_kek {k : Name} (h : isValidKeyName k = true) (n : Name) :
    Decryptor.extractKdkInfo (n ++ [encryptedBy] ++ kekName k) n =
      .ok (identityOfKey k ++ [kdk] ++ k.drop (k.length - 1), identityOfKey k, k) := by
  obtain ⟨kid, h1, h2⟩ := keyName_split h
  unfold kekName Decryptor.extractKdkInfo
  rw [h2]
  generalize identityOfKey k = i at *
  have e1 : (n ++ [encryptedBy] ++ (i ++ [kek] ++ [kid])).take n.length = n := by rw [List.append_assoc]; exact List.take_left
  have e2 : (n ++ [encryptedBy] ++ (i ++ [kek] ++ [kid]))[n.length]? = some encryptedBy := by
    rw [List.append_assoc, List.getElem?_append_right (Nat.le_refl _), Nat.sub_self]; rfl
  have e3 : (n ++ [encryptedBy] ++ (i ++ [kek] ++ [kid])).drop (n.length + 1) = i ++ [kek, kid] := by
    rw [List.drop_append_of_le_length (by simp), List.drop_of_length_le (by simp)]
    simp
  rw [if_neg, e3]
  · dsimp only
    have e4 : (i ++ [kek, kid])[(i ++ [kek, kid]).length - 2]? = some kek := by simp
    rw [if_neg]
    · have e5 : (i ++ [kek, kid]).take ((i ++ [kek, kid]).length - 2) = i := by simp
      have e6 : (i ++ [kek, kid]).drop ((i ++ [kek, kid]).length - 1) = [kid] := by simp
      rw [e5, e6, h1]
      simp
    · rw [e4]
      simp [component_equals_iff]
  · rw [e1, e2]
    simp [KeyChain.equals_iff, component_equals_iff]

/-- The facts about the NAC key: its private key, and what the manager exports. -/
theorem Managed.key {E : EncParams} {D : DecParams} {ops : List KeyChain.Op} {certificate member kekPacket kdkPacket : Data}
    (C : Crypto E D member) (M : Managed E D ops certificate member kekPacket kdkPacket) :
    ∃ p, isValidKeyName (keyOfCert certificate.name) = true ∧ certificate.content = some (D.kc.publicKey p) ∧
      dictGet (keyOfCert certificate.name) (KeyChain.run D.kc ops).tpm = some p := by
  have hs := KeyChain.coh_run C.sound ops M.disciplined
  obtain ⟨_, ⟨bits, hb⟩, _⟩ := hs.cons.cert _ _ M.stored
  obtain ⟨p, hp, hpb⟩ := hs.tpm _ _ hb
  exact ⟨p, (hs.cons.key _ _ hb).1, by rw [← hs.content _ _ M.stored, hb, hpb], hp⟩

/-- The certificate that the member gets has the same format. -/
theorem checkCert_same {c c' : Data} (h : SameData c c') (hc : checkCert c = .ok ()) {b : Bytes} (hb : c.content = some b) (hne : b ≠ []) :
    checkCert c' = .ok () ∧ c'.content = some b := by
  obtain ⟨h1, ⟨h2, _, h3, _⟩, h4, _⟩ := h
  have hcont : c'.content = some b := by
    rw [hb, Option.getD_some] at h4
    cases hx : c'.content with
    | none => rw [hx] at h4; exact absurd h4 hne
    | some b' => rw [hx] at h4; rw [h4]; rfl
  refine ⟨?_, hcont⟩
  unfold checkCert Validator.checkFormat at hc ⊢
  dsimp only at hc ⊢
  rw [← h1, ← h2, ← h3, hcont, ← hb]
  exact hc

theorem kdkExists_spec {D : DecParams} (S : Sound D.kc) {s : KC} (hs : Coh D.kc true s) {k : Name} (hv : isValidKeyName k = true) :
    ∃ s', Decryptor.kdkExists D (identityOfKey k) k s = (.ok (dictGet k s.store.keys).isSome, s') ∧ Coh D.kc true s' ∧ Quiet s s' := by
  have h : After (Decryptor.kdkExists D (identityOfKey k) k) s fun x s' => x = .ok (dictGet k s.store.keys).isSome ∧ Coh D.kc true s' ∧ Quiet s s' := by
    unfold Decryptor.kdkExists
    refine After.exceptPib (After.bind ((KeyChain.getIdentity_spec hs _).mono ?_))
    rintro x s1 ⟨g1, g2, g3⟩
    cases x with
    | error e =>
      obtain ⟨rfl, g3⟩ := g3
      refine ⟨?_, g1, g2⟩
      cases hk : dictGet k s.store.keys with
      | none => rfl
      | some b => exact absurd (hs.cons.key _ _ hk).2 g3
    | ok h =>
      refine After.bind ((KeyChain.keyGet_spec S g1 g3.1 _).mono ?_)
      rintro x s2 ⟨f1, f2, f3⟩
      cases x with
      | error e =>
        rcases f3 with ⟨f3, _⟩ | ⟨rfl, f3⟩
        · exact absurd ⟨hv, rfl⟩ f3
        · refine ⟨?_, f1, g2.trans f2⟩
          rw [g2.store] at f3
          rw [f3]
          rfl
      | ok r =>
        obtain ⟨_, _, _, ⟨b, f4⟩, _⟩ := f3
        refine ⟨?_, f1, g2.trans f2⟩
        rw [g2.store] at f4
        rw [f4]
        rfl
  exact ⟨_, Prod.ext h.1 rfl, h.2⟩

/-- The KDK packet is imported by a member that does not have the key. -/
theorem importKdk_ok {E : EncParams} {D : DecParams} {ops : List KeyChain.Op} {certificate member kekPacket kdkPacket : Data}
    (C : Crypto E D member) (M : Managed E D ops certificate member kekPacket kdkPacket) {p : Nat}
    (hp : dictGet (keyOfCert certificate.name) (KeyChain.run D.kc ops).tpm = some p) (hcont : certificate.content = some (D.kc.publicKey p))
    (hv : isValidKeyName (keyOfCert certificate.name) = true)
    (env : Env) {s : KC} (hs : Coh D.kc true s) (hn : dictGet (keyOfCert certificate.name) s.tpm = none) :
    ∃ s', Decryptor.importKdk D kdkPacket env s = (.ok none, s') ∧ Coh D.kc true s' ∧ dictGet (keyOfCert certificate.name) s'.tpm = some p ∧
      (dictGet (keyOfCert certificate.name) s'.store.keys).isSome = true := by
  obtain ⟨bag, randomBytes, random, d, s0, h1, h2, h3, h4⟩ := M.kdk
  unfold kdkData at h2
  dsimp only at h2
  generalize randomBytes.map secretByte = secret at *
  have hbag : bag = D.kc.wrap p (some secret) := by
    unfold KeyChain.exportSafeBag at h1
    rw [KeyChain.get_bind, KeyChain.orRaise_some _ hp] at h1
    cases h1
    rfl
  cases hw : SafeBag.wireEncode { certificate := certificate, privateKeyBag := bag } with
  | error e => rw [hw] at h2; nomatch h2
  | ok payload =>
    rw [hw] at h2
    simp only [bind, Except.bind] at h2
    cases hr : E.rsaEncrypt member.content secret random with
    | none => rw [hr] at h2; nomatch h2
    | some payloadKey =>
      rw [hr] at h2
      dsimp only at h2
      obtain ⟨hne, _⟩ := C.size _ _ _ _ hr
      cases h2
      dsimp only at h4
      have hsize := M.size _ h4
      have hdec := Encrypt.C67_roundtrip_v2 { payload := some payload, payloadKey := some payloadKey } (by nofun) hsize []
      rw [List.append_nil] at hdec
      have hpl : payload.length < 2 ^ 64 := by
        rw [Encrypt.C67_encoding_v2, tlv, List.length_append, List.length_append] at hsize
        have : (flat (fieldsV2 { payload := some payload, payloadKey := some payloadKey })).length ≥ payload.length := by
          unfold fieldsV2
          rw [List.append_assoc, List.append_assoc, flat_append, List.length_append]
          have : (flat [(132, (some payload).getD [])]).length ≥ payload.length := by
            rw [flat_one, tlv, List.length_append, List.length_append]
            exact Nat.le_add_left _ _
          exact Nat.le_trans this (Nat.le_add_right _ _)
        omega
      obtain ⟨b', k1, k2, k3⟩ := Encrypt.C67_safe_bag _ M.encodable payload hw hpl []
      rw [List.append_nil] at k1
      dsimp only at k2 k3
      obtain ⟨c1, c2⟩ := checkCert_same k2 M.format hcont (C.sound.nonempty p)
      have hname : b'.certificate.name = certificate.name := k2.1.symm
      have hprop : Proper true D.kc s (.importSafeBag b'.certificate b'.privateKeyBag (some secret) env.random) := by
        intro p' hu _
        rw [k3, hbag, C.wrap] at hu
        cases hu
        exact c2
      have hspec := KeyChain.importSafeBag_spec C.sound hs b'.certificate b'.privateKeyBag (some secret) env.random hprop
      unfold After at hspec
      obtain ⟨g1, _, g3⟩ := hspec
      unfold Decryptor.importKdk
      rw [h4]
      dsimp only
      rw [KeyChain.lift_bind_ok hdec]
      dsimp only [keptV2, Option.getD_some]
      rw [KeyChain.lift_bind_ok k1, show written (some payloadKey) = some payloadKey from if_neg (by simpa using hne),
        C.credentials _ _ env.random _ hr]
      dsimp only
      cases hx : importSafeBag D.kc b'.certificate b'.privateKeyBag (some secret) env.random s with
      | mk r s' =>
        rw [hx] at g1 g3
        dsimp only at g1 g3
        cases r with
        | error e =>
          refine absurd ⟨c1, ?_, ?_, p, ?_, c2⟩ g3.1
          · rw [hname]; exact hn
          · rw [hname]; exact hv
          · rw [k3, hbag, C.wrap]
        | ok u =>
          dsimp only at g3
          obtain ⟨_, _, _, ⟨p', f1, f2⟩, f3, _⟩ := g3
          rw [k3, hbag, C.wrap] at f1
          cases f1
          rw [KeyChain.bind_ok hx]
          rw [hname] at f2 f3
          refine ⟨s', rfl, g1, ?_, ?_⟩
          · rw [f2, KeyChain.get_set, if_pos rfl]
          · rw [f3, c2]; rfl

/-! ### The producer -/

namespace Encryptor

theorem tr_grows {P : EncParams} {s s' : Encryptor} {o : Option Nat} (h : Tr P s s' o) : ∃ L, s'.trace = s.trace ++ L := by
  cases h with
  | quiet L h1 => exact ⟨_, h1⟩
  | put d h1 => exact ⟨_, h1⟩
  | ck t b L h0 h1 => exact ⟨_, h1⟩
  | ckPublished t b kek d k h0 h1 => exact ⟨_, h1⟩
  | ckFailed t b h0 h1 => exact ⟨_, h1⟩
  | kekPublished kek d k h1 => exact ⟨_, h1⟩
  | kekFailed kek h1 => exact ⟨_, h1⟩

theorem run_grows {P : EncParams} (hs : Signs P) (now bits env) (done : List EAct) : ∀ rest : List EAct,
    ∃ L, (run P now bits env (done ++ rest)).trace = (run P now bits env done).trace ++ L := by
  intro rest
  unfold run
  rw [List.foldl_append]
  generalize List.foldl (step P) (start P now bits env) done = s
  induction rest generalizing s with
  | nil => exact ⟨[], by simp⟩
  | cons a rest ih =>
    obtain ⟨L, h1⟩ := tr_grows (step_tr hs s a)
    obtain ⟨L2, h2⟩ := ih (step P s a)
    exact ⟨L ++ L2, by rw [List.foldl_cons, h2, h1, List.append_assoc]⟩

end Encryptor

/-- A CK of the producer. -/
def IsCk (E : EncParams) (now : Nat) (bits : Bytes) (env : Env) (acts : List EAct) (n : Name) (b : Bytes) : Prop :=
  (n, b) ∈ cks (Encryptor.run E now bits env acts).trace

section
variable {E : EncParams} {now : Nat} {bits : Bytes} {env : Env} {acts : List EAct} {kekPacket : Data}

theorem IsCk.time (R : Produces E now bits env acts kekPacket) {n : Name} {b : Bytes} (h : IsCk E now bits env acts n b) :
    ∃ t, t ∈ times now acts ∧ n = ckNameAt E t := by
  have : n ∈ (cks (Encryptor.run E now bits env acts).trace).map (·.1) := List.mem_map.mpr ⟨_, h, rfl⟩
  rw [Encryptor.cks_run R.signs] at this
  obtain ⟨t, h1, h2⟩ := List.mem_map.mp this
  exact ⟨t, h1, h2.symm⟩

theorem pairs_unique : ∀ {l : List (Name × Bytes)}, (l.map (·.1)).Nodup → ∀ {n b b'}, (n, b) ∈ l → (n, b') ∈ l → b = b'
  | [], _, _, _, _, h, _ => nomatch h
  | x :: l, hnd, n, b, b', h, h' => by
    rw [List.map_cons, List.nodup_cons] at hnd
    rcases List.mem_cons.mp h with e1 | e1 <;> rcases List.mem_cons.mp h' with e2 | e2
    · rw [← e1] at e2; cases e2; rfl
    · subst e1
      exact absurd (List.mem_map.mpr ⟨(n, b'), e2, rfl⟩ : n ∈ l.map (·.1)) hnd.1
    · subst e2
      exact absurd (List.mem_map.mpr ⟨(n, b), e1, rfl⟩ : n ∈ l.map (·.1)) hnd.1
    · exact pairs_unique hnd.2 e1 e2

theorem IsCk.unique (R : Produces E now bits env acts kekPacket) {n : Name} {b b' : Bytes} (h : IsCk E now bits env acts n b)
    (h' : IsCk E now bits env acts n b') : b = b' := by
  refine pairs_unique ?_ h h'
  rw [Encryptor.cks_run R.signs, List.nodup_iff_pairwise_ne, List.pairwise_map]
  refine List.Pairwise.imp_of_mem ?_ (List.nodup_iff_pairwise_ne.mp R.times.1)
  intro a b ha hb hne h
  refine hne (Encryptor.ckName_under (P := E) (R.times.2 a ha) (R.times.2 b hb) (rest := []) ?_)
  rw [h, List.append_nil]
  exact List.prefix_refl _

/-- What the member gets. -/
theorem Encrypts.spec (R : Produces E now bits env acts kekPacket) {plain : Bytes} {x : EncryptedContent} (h : Encrypts E now bits env acts plain x) :
    ∃ n b iv, IsCk E now bits env acts n b ∧ ckOf x = n ∧ WellFormed x ∧ x.initialVector = some iv ∧
      x.payload = some (E.aes.encrypt b iv (pad plain)) := by
  obtain ⟨done, rest, iv, rfl, hiv, hsize, hdec⟩ := h
  obtain ⟨n, b, h1, h2⟩ := Encryptor.C68_encrypt R.signs now bits env done plain iv
  have hck : IsCk E now bits env (done ++ rest) n b := by
    obtain ⟨L, hL⟩ := Encryptor.run_grows R.signs now bits env done rest
    unfold IsCk
    rw [hL, Encryptor.cks_append]
    exact List.mem_append_left _ (List.mem_of_getLast? h1)
  obtain ⟨t, _, hn⟩ := hck.time R
  have hcan : CanonicalName n := by
    rw [hn]
    intro c hc
    rcases List.mem_append.mp hc with hc | hc
    · exact R.canonical c hc
    · simp only [List.mem_cons, List.not_mem_nil, or_false] at hc
      rcases hc with rfl | rfl
      · trivial
      · trivial
  rw [h2] at hdec hsize
  have := Encrypt.C67_roundtrip_v2 _ (fun _ => hcan) hsize []
  rw [List.append_nil, hdec] at this
  cases this
  refine ⟨n, b, iv, hck, ?_, ⟨?_, ?_⟩, ?_, rfl⟩
  · rfl
  · rfl
  · show written (some iv) ≠ none
    rw [written, if_neg (by simpa using hiv)]
    nofun
  · exact if_neg (by simpa using hiv)

/-- What a CK packet is. -/
theorem published_spec (R : Produces E now bits env acts kekPacket) {d : Data} (h : .published d ∈ (Encryptor.run E now bits env acts).trace) :
    ∃ n b, IsCk E now bits env acts n b ∧ IsCkPacket E n b kekPacket d := by
  obtain ⟨x, y, hxy⟩ := List.append_of_mem h
  obtain ⟨n, b, kek, c1, c2, c3⟩ := Encryptor.C68_published R.signs now bits env acts x y d hxy
  have m2 : .kek kek ∈ (Encryptor.run E now bits env acts).trace := by
    obtain ⟨e, he, h2⟩ := List.mem_filterMap.mp (List.mem_of_getLast? c2)
    rw [hxy]
    refine List.mem_append_left _ ?_
    cases e <;> cases h2
    exact he
  rw [R.kek kek m2] at c3
  refine ⟨n, b, ?_, c3⟩
  unfold IsCk
  rw [hxy, Encryptor.cks_append]
  exact List.mem_append_left _ (List.mem_of_getLast? c1)

/-- The packet that answers an Interest for a CK. -/
theorem ck_answer (R : Produces E now bits env acts kekPacket) {kdkPacket d : Data} (hsep : Separate E now bits env acts kdkPacket) {n : Name} {b : Bytes}
    (hn : IsCk E now bits env acts n b) (hd : Packet E now bits env acts kdkPacket d) (hp : n <+: d.name) : IsCkPacket E n b kekPacket d := by
  obtain ⟨t, ht, hnt⟩ := hn.time R
  rcases hd with hd | rfl
  · obtain ⟨n', b', h1, h2⟩ := published_spec R hd
    obtain ⟨t', ht', hnt'⟩ := h1.time R
    have : t = t' := by
      refine Encryptor.ckName_under (P := E) (R.times.2 t ht) (R.times.2 t' ht') (rest := [encryptedBy] ++ kekPacket.name) ?_
      rw [h2.1, hnt, hnt', List.append_assoc] at hp
      obtain ⟨r, hr⟩ := hp
      exact ⟨r.map (·.value), by rw [← hr, List.map_append]⟩
    subst this
    rw [← hnt] at hnt'
    subst hnt'
    rw [h1.unique R hn] at h2
    exact h2
  · refine absurd (List.IsPrefix.trans ?_ hp) hsep.1
    rw [hnt, ckNameAt]
    exact ⟨[⟨.generic, 0xFD :: nonNeg t⟩], by simp⟩

end

end Nac
end PyNDN
