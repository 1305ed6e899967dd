import Verif.Props.NacSystem
import Verif.Props.NacDecryptorWitness
/-
C70: an example that meets the hypotheses, and departures.
-/
namespace PyNDN
namespace Nac
namespace Decryptor
open Spec.Nac
open Spec (DataOk CanonicalName Canonical)
open Encrypt (EncryptedContent SafeBag)
open PSync (dictGet)
open KeyChain (exP exA exGen exKey exOps keyOfCert)
open Encryptor (comp ok)

/-! ### A concrete system -/

/-- Decryption with another key or initial vector fails. -/
def exAes : Aes :=
  { encrypt := fun k iv p => k ++ iv ++ p
    decrypt := fun k iv c => if c.take (k ++ iv).length = k ++ iv then some (c.drop (k ++ iv).length) else none }

def sysE : EncParams :=
  { accessPrefix := [comp 1]
    ckPrefix := [comp 2]
    aes := exAes
    rsaEncrypt := fun c bits _ => match c with
      | some c => if c ++ bits ≠ [] ∧ (c ++ bits).length < 2 ^ 32 then some (c ++ bits) else none
      | none => none
    sign := fun _ d => some d
    fullName := fun d => .ok (d.name ++ [⟨.implicit, d.content.getD []⟩]) }

/-- The certificate of the member, with the name of its key /3/KEY/1. -/
def sysMember : Data := { name := [comp 3, Validator.keyComponent, comp 1, comp 2, comp 3], content := some [6, 6, 6] }

def sysD : DecParams :=
  { kc := exP
    credentials := keyOfCert sysMember.name
    aes := exAes
    credDecrypt := fun _ c => some (c.map (·.drop 3))
    rsaDecrypt := fun p c => some (c.drop (p + 1)) }

theorem sysCrypto : Crypto sysE sysD sysMember where
  sound := KeyChain.exSound
  wrap := by
    intro p password
    show some (List.replicate p (1 : UInt8)).length = some p
    rw [List.length_replicate]
  same := rfl
  aes := by
    intro key iv plain _
    show (if (key ++ iv ++ plain).take (key ++ iv).length = key ++ iv then some ((key ++ iv ++ plain).drop (key ++ iv).length) else none) = _
    rw [List.take_left, if_pos rfl, List.drop_left]
  rsa := by
    intro p bits random c h
    have h : (if List.replicate (p + 1) (1 : UInt8) ++ bits ≠ [] ∧ (List.replicate (p + 1) (1 : UInt8) ++ bits).length < 2 ^ 32 then
      some (List.replicate (p + 1) (1 : UInt8) ++ bits) else none) = some c := h
    split at h
    · cases h
      show some (List.drop (p + 1) (List.replicate (p + 1) (1 : UInt8) ++ bits)) = some bits
      rw [List.drop_left' List.length_replicate]
    · cases h
  credentials := by
    intro bits random random' c h
    have h : (if [6, 6, 6] ++ bits ≠ [] ∧ ([6, 6, 6] ++ bits).length < 2 ^ 32 then some ([6, 6, 6] ++ bits) else none) = some c := h
    split at h
    · cases h; rfl
    · cases h
  size := by
    intro key bits random c h
    cases key with
    | none => cases h
    | some key =>
      have h : (if key ++ bits ≠ [] ∧ (key ++ bits).length < 2 ^ 32 then some (key ++ bits) else none) = some c := h
      split at h
      · next hc => cases h; exact hc
      · cases h

def sysOps : List KeyChain.Op := [.createIdentity exA (exGen 1)]

/-- The packets of the access manager. -/
def sysKek : Data := kekData exKey exCert
def sysKdk : Data := match kdkData sysE.rsaEncrypt exKey { certificate := exCert, privateKeyBag := exP.wrap 1 none } sysMember [7, 128, 0] 0 with
  | .ok d => d
  | .error _ => { name := [] }

instance : DecidablePred Canonical := fun c => by unfold Canonical; split <;> infer_instance
instance (n : Name) : Decidable (CanonicalName n) := by unfold CanonicalName; infer_instance

theorem sysCert_ok : DataOk exCert := by
  refine ⟨by decide +kernel, ?_, ?_⟩
  · refine ⟨.inl (by decide +kernel), ?_, by decide +kernel, by decide +kernel⟩
    have : exCert.metaInfo.freshnessPeriod = some 3600000 := by decide +kernel
    intro f hf
    rw [this] at hf
    cases hf
    decide
  · have : exCert.signature.info = .rsa { type := some 1, keyName := exKey } (some (1000, 630720001000)) := by decide +kernel
    rw [this]
    refine ⟨.inr (.inl ⟨rfl, by decide +kernel⟩), ?_⟩
    intro nb na h
    cases h
    exact ⟨⟨by decide, by decide, by decide⟩, by decide, by decide, by decide⟩

theorem sysManaged : Managed sysE sysD sysOps exCert sysMember sysKek sysKdk where
  disciplined := KeyChain.disciplined_add (ops := []) KeyChain.disciplined_nil fun h => nomatch h
  stored := by decide +kernel
  format := by decide +kernel
  encodable := sysCert_ok
  kek := ⟨_, rfl, by decide +kernel, by decide +kernel⟩
  kdk := by
    refine ⟨exP.wrap 1 none, [7, 128, 0], 0, sysKdk, KeyChain.run exP sysOps, ?_, ?_, rfl, rfl⟩
    · have h : dictGet (keyOfCert exCert.name) (KeyChain.run exP sysOps).tpm = some 1 := by decide +kernel
      unfold KeyChain.exportSafeBag
      rw [KeyChain.get_bind, show sysD.kc = exP from rfl, KeyChain.orRaise_some _ h]
      rfl
    · have h : keyOfCert exCert.name = exKey := by decide +kernel
      rw [h]
      decide +kernel
  size := by
    have h : ∀ c ∈ sysKdk.content, c.length < 2 ^ 64 := by decide +kernel
    exact fun c hc => h c hc
  credentials := rfl

/-- The producer gets the KEK and makes a second CK. -/
def sysActs : List EAct := [.data 1 sysKek ok, .regenerateCk 1001 [6] ok]

def sysRun (done : List EAct) : Encryptor := Encryptor.run sysE 1000 [5] ok done

theorem sysProduces : Produces sysE 1000 [5] ok sysActs sysKek where
  signs := ⟨(by intro r d d' h; cases h; exact ⟨rfl, rfl⟩), (by intro d k h; cases h; exact ⟨_, rfl⟩)⟩
  kek := by
    have h : ∀ e ∈ (sysRun sysActs).trace, ∀ d ∈ (match e with | .kek d => some d | _ => none), d = sysKek := by decide +kernel
    exact fun d hd => h _ hd d rfl
  times := ⟨by decide +kernel, by decide +kernel⟩
  canonical := by decide

def sysPublished : List Data := (sysRun sysActs).trace.filterMap fun e => match e with | .published d => some d | _ => none

theorem sysSeparate : Separate sysE 1000 [5] ok sysActs sysKdk := by
  refine ⟨by decide +kernel, fun d hd => ?_⟩
  have h : ∀ d ∈ sysPublished, ¬ sysKdk.name <+: d.name := by decide +kernel
  exact h d (List.mem_filterMap.mpr ⟨_, hd, rfl⟩)

/-- What the producer makes of a plain text with one of its CKs, after a part of its history. -/
def sysContent (done : List EAct) (plain : Bytes) : EncryptedContent :=
  match Encrypt.decodeEncryptedContentV2 (Encrypt.encodeEncryptedContentV2 ((sysRun done).encrypt sysE plain [4, 4])) with
  | .ok x => x
  | .error _ => {}

def sysX1 : EncryptedContent := sysContent [] [7, 8, 9]
def sysX2 : EncryptedContent := sysContent sysActs [1]

theorem sysEncrypts1 : Encrypts sysE 1000 [5] ok sysActs [7, 8, 9] sysX1 :=
  ⟨[], sysActs, [4, 4], rfl, by decide, by decide +kernel, by decide +kernel⟩
theorem sysEncrypts2 : Encrypts sysE 1000 [5] ok sysActs [1] sysX2 :=
  ⟨sysActs, [], [4, 4], rfl, by decide, by decide +kernel, by decide +kernel⟩

def sysCk (i : Nat) : Data := sysPublished[i]?.getD { name := [] }

theorem network_nil {pk : Data → Prop} : Network sysD pk [] := by
  refine ⟨fun a id d env b h => ?_, fun a h => nomatch h⟩
  cases a <;> nomatch h

/-- The Interest that is expressed with the number. -/
def expressed (n : Nat) : DEv → Option Interest
  | .express j i => if j = n then some i else none
  | _ => none

/-- The content and the number of a call. -/
def called : DEv → Option EncryptedContent
  | .call _ y => some y
  | _ => none
def callNo : DEv → Option Nat
  | .call c _ => some c
  | _ => none

theorem network_add {pk : Data → Prop} {acts : List DAct} {a : DAct} (h : Network sysD pk acts)
    (ha : a ≠ .shutdown ∧ (∀ id, a ≠ .nack id) ∧ ∀ e, envOfD a = some e → e.express = .ok)
    (hd : ∀ id d env, a = .data id d env → pk d ∧ ∀ e ∈ (run sysD acts).trace, ∀ i ∈ expressed id e, i.name <+: d.name) : Network sysD pk (acts ++ [a]) := by
  refine ⟨fun x id d env b e => ?_, fun y hy => ?_⟩
  · rcases List.eq_nil_or_concat b with rfl | ⟨b', y, rfl⟩
    · have e1 := List.append_inj_left' e rfl
      have e2 := List.append_inj_right' e rfl
      subst e1
      cases e2
      obtain ⟨g1, g2⟩ := hd id d env rfl
      exact ⟨g1, fun i hi => g2 _ hi i (by simp [expressed])⟩
    · rw [List.concat_eq_append] at e
      have e' : acts ++ [a] = (x ++ .data id d env :: b') ++ [y] := by rw [e]; simp
      exact h.honest x id d env b' (List.append_inj_left' e' rfl)
  · rcases List.mem_append.mp hy with hy | hy
    · exact h.calm y hy
    · rw [List.mem_singleton.mp hy]; exact ha

theorem network_decrypt {pk : Data → Prop} {acts : List DAct} {x : EncryptedContent} {env : Env}
    (ha : DAct.decrypt x env ≠ .shutdown ∧ (∀ id, DAct.decrypt x env ≠ .nack id) ∧ ∀ e, envOfD (.decrypt x env) = some e → e.express = .ok)
    (h : Network sysD pk acts) : Network sysD pk (acts ++ [.decrypt x env]) := network_add h ha (fun _ _ _ e => nomatch e)

theorem network_timeout {pk : Data → Prop} {acts : List DAct} {n : Nat} {env : Env}
    (ha : DAct.timeout n env ≠ .shutdown ∧ (∀ id, DAct.timeout n env ≠ .nack id) ∧ ∀ e, envOfD (.timeout n env) = some e → e.express = .ok)
    (h : Network sysD pk acts) : Network sysD pk (acts ++ [.timeout n env]) := network_add h ha (fun _ _ _ e => nomatch e)

theorem network_data {pk : Data → Prop} {acts : List DAct} {n : Nat} {d : Data} {env : Env}
    (ha : DAct.data n d env ≠ .shutdown ∧ (∀ id, DAct.data n d env ≠ .nack id) ∧ ∀ e, envOfD (.data n d env) = some e → e.express = .ok)
    (h : Network sysD pk acts) (hp : pk d) (hn : ∀ e ∈ (run sysD acts).trace, ∀ i ∈ expressed n e, i.name <+: d.name) :
    Network sysD pk (acts ++ [.data n d env]) := network_add h ha (fun _ _ _ e => by cases e; exact ⟨hp, hn⟩)

/-- Two calls for the first CK, one timeout, the CK packet, the KDK packet, and a call for the second CK with its packet. -/
def sysHistory : List DAct :=
  [.decrypt sysX1 ok, .decrypt sysX1 ok, .timeout 1 ok, .data 2 (sysCk 0) ok, .data 3 sysKdk ok, .decrypt sysX2 ok, .data 4 (sysCk 1) ok]

theorem sysCk_published {i : Nat} (h : (sysPublished[i]?).isSome = true) : Packet sysE 1000 [5] ok sysActs sysKdk (sysCk i) := by
  left
  obtain ⟨d, hd⟩ := Option.isSome_iff_exists.mp h
  have : sysCk i ∈ sysPublished := by
    unfold sysCk
    rw [hd]
    exact List.mem_of_getElem? hd
  obtain ⟨e, he, h2⟩ := List.mem_filterMap.mp this
  cases e <;> cases h2
  exact he

attribute [local irreducible] sysX1 sysX2 sysCk sysKdk

theorem sysNetwork : Network sysD (Packet sysE 1000 [5] ok sysActs sysKdk) sysHistory := by
  have call : ∀ x, (DAct.decrypt x ok ≠ .shutdown ∧ (∀ id, DAct.decrypt x ok ≠ .nack id) ∧ ∀ e, envOfD (.decrypt x ok) = some e → e.express = .ok) :=
    fun x => ⟨by nofun, by nofun, fun e he => by cases he; rfl⟩
  have data : ∀ i x, (DAct.data i x ok ≠ .shutdown ∧ (∀ id, DAct.data i x ok ≠ .nack id) ∧ ∀ e, envOfD (.data i x ok) = some e → e.express = .ok) :=
    fun i x => ⟨by nofun, by nofun, fun e he => by cases he; rfl⟩
  have timeout : ∀ i, (DAct.timeout i ok ≠ .shutdown ∧ (∀ id, DAct.timeout i ok ≠ .nack id) ∧ ∀ e, envOfD (.timeout i ok) = some e → e.express = .ok) :=
    fun i => ⟨by nofun, by nofun, fun e he => by cases he; rfl⟩
  have h1 := network_decrypt (call sysX1) (network_nil (pk := Packet sysE 1000 [5] ok sysActs sysKdk))
  have h2 := network_decrypt (call sysX1) h1
  have h3 := network_timeout (timeout 1) h2
  have h4 := network_data (data 2 (sysCk 0)) h3 (sysCk_published (by decide +kernel)) (by decide +kernel)
  have h5 := network_data (data 3 sysKdk) h4 (.inr rfl) (by decide +kernel)
  have h6 := network_decrypt (call sysX2) h5
  exact network_data (data 4 (sysCk 1)) h6 (sysCk_published (by decide +kernel)) (by decide +kernel)

theorem oneAtATime_add {acts : List DAct} {a : DAct} (h : OneAtATime sysD acts)
    (ha : ∀ x env, a = .decrypt x env → (∃ e ∈ (run sysD acts).trace, ∃ y ∈ called e, ckOf y = ckOf x) ∨
      ∀ e ∈ (run sysD acts).trace, ∀ c ∈ callNo e, answers (run sysD acts).trace c = 1) :
    OneAtATime sysD (acts ++ [a]) := by
  intro z x env b e
  rcases List.eq_nil_or_concat b with rfl | ⟨b', y, rfl⟩
  · have e1 := List.append_inj_left' e rfl
    have e2 := List.append_inj_right' e rfl
    subst e1
    cases e2
    rcases ha x env rfl with ⟨e, he, y, hy, hxy⟩ | hh
    · left
      cases e <;> cases hy
      exact ⟨_, _, he, hxy⟩
    · exact .inr fun c y hc => hh _ hc c rfl
  · rw [List.concat_eq_append] at e
    have e' : acts ++ [a] = (z ++ .decrypt x env :: b') ++ [y] := by rw [e]; simp
    exact h z x env b' (List.append_inj_left' e' rfl)

theorem sysOneAtATime : OneAtATime sysD sysHistory := by
  have h0 : OneAtATime sysD [] := fun a x env b e => by cases a <;> nomatch e
  have h1 := oneAtATime_add (a := .decrypt sysX1 ok) h0 (fun x env e => .inr (by nofun))
  have h2 := oneAtATime_add (a := .decrypt sysX1 ok) h1 (fun x env e => by
    cases e
    exact .inl ⟨.call 0 sysX1, by decide +kernel, sysX1, rfl, rfl⟩)
  have h3 := oneAtATime_add (a := .timeout 1 ok) h2 (by nofun)
  have h4 := oneAtATime_add (a := .data 2 (sysCk 0) ok) h3 (by nofun)
  have h5 := oneAtATime_add (a := .data 3 sysKdk ok) h4 (by nofun)
  have h6 := oneAtATime_add (a := .decrypt sysX2 ok) h5 (fun x env e => by
    cases e
    exact .inr (by decide +kernel))
  exact oneAtATime_add (a := .data 4 (sysCk 1) ok) h6 (by nofun)

theorem sysCalls : ∀ x ev, .decrypt x ev ∈ sysHistory → ∃ plain, Encrypts sysE 1000 [5] ok sysActs plain x := by
  intro x ev h
  simp only [sysHistory, List.mem_cons, List.not_mem_nil, or_false, DAct.decrypt.injEq, reduceCtorEq, false_or] at h
  rcases h with ⟨rfl, _⟩ | ⟨rfl, _⟩ | ⟨rfl, _⟩
  · exact ⟨_, sysEncrypts1⟩
  · exact ⟨_, sysEncrypts1⟩
  · exact ⟨_, sysEncrypts2⟩

/-- The hypotheses of C70_member are met: all three callers are told. -/
example : .success 0 [7, 8, 9] ∈ (run sysD sysHistory).trace ∧ .success 1 [7, 8, 9] ∈ (run sysD sysHistory).trace ∧
    .success 2 [1] ∈ (run sysD sysHistory).trace := by
  have h := (C70_member sysCrypto sysManaged sysProduces sysSeparate (fun _ => rfl) sysHistory sysNetwork sysOneAtATime sysCalls).2.2
    (by decide +kernel) (by decide +kernel)
  exact ⟨h 0 sysX1 _ (by decide +kernel) sysEncrypts1, h 1 sysX1 _ (by decide +kernel) sysEncrypts1, h 2 sysX2 _ (by decide +kernel) sysEncrypts2⟩

/-- The hypotheses of C70_two_packets are met, in the middle of this history. -/
example : (run sysD (sysHistory.take 3)).outstanding.map (·.1) = [2] ∧ (run sysD (sysHistory.take 4)).outstanding.map (·.1) = [3] ∧
    (run sysD (sysHistory.take 5)).outstanding = [] := by decide +kernel

/-! ### Departures -/

/-- Two CKs that are made in the same millisecond have the same name: what was encrypted with the first cannot be decrypted. -/
theorem C70_same_time : let acts : List EAct := [.data 1 sysKek ok, .regenerateCk 1000 [6] ok]
    let ck := (sysRun acts).trace.filterMap fun e => match e with | .published d => some d | _ => none
    (ck.map (·.name)).Nodup = False ∧
    (run sysD [.decrypt sysX1 ok, .data 1 (ck[1]?.getD { name := [] }) ok, .data 2 sysKdk ok]).trace.getLast? = some (.error 0 .decryptionFailure) := by
  refine ⟨eq_false (by decide +kernel), by decide +kernel⟩

/-- A CK that is made before the KEK comes, and followed by another, is never published: what was encrypted with it cannot be decrypted by
anyone. -/
theorem C70_lost_ck : let acts : List EAct := [.regenerateCk 1001 [6] ok, .data 1 sysKek ok]
    (sysRun acts).store.length = 1 ∧ ckOf sysX1 = (sysRun []).ckName ∧ ((sysRun (acts ++ [.interest (ckOf sysX1)])).trace = (sysRun acts).trace) := by
  decide +kernel

end Decryptor
end Nac
end PyNDN
