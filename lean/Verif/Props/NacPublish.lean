import Verif.Props.NacEncryptor
/-
C68: what an encryptor publishes.
-/
namespace PyNDN
namespace Nac
namespace Encryptor
open Spec.Nac
open Spec (tlv flat nonNeg opt)
open Fetch (Express)
open Storage (under)

/-- Events that are about no CK. -/
def Neutral (e : EEv) : Prop := match e with
  | .express _ _ => True
  | .callLater _ => True
  | .error _ => True
  | _ => False

/-- The CK, the KEK and the storage are the same. -/
structure Keeps (s s' : Encryptor) : Prop where
  name : s'.ckName = s.ckName
  bits : s'.ckBits = s.ckBits
  kek : s'.kekData = s.kekData
  store : s'.store = s.store

theorem Keeps.rfl' {s : Encryptor} : Keeps s s := ⟨rfl, rfl, rfl, rfl⟩

/-- What a step does to CKs, KEKs and the storage. -/
inductive Tr (P : EncParams) (s s' : Encryptor) : Option Nat → Prop
  | quiet (L) : s'.trace = s.trace ++ L → (∀ e ∈ L, Neutral e) → Keeps s s' → Tr P s s' none
  | put (d) : s'.trace = s.trace ++ [.putData d] → (∃ k, (k, d) ∈ s.store) → Keeps s s' → Tr P s s' none
  | ck (t b L) : s.kekData = none → s'.trace = s.trace ++ .ck (ckNameAt P t) b :: L → (∀ e ∈ L, Neutral e) →
      Keeps { s with ckName := ckNameAt P t, ckBits := b } s' → Tr P s s' (some t)
  | ckPublished (t b kek d k) : s.kekData = some kek → s'.trace = s.trace ++ [.ck (ckNameAt P t) b, .published d] →
      Keeps { s with ckName := ckNameAt P t, ckBits := b, store := Storage.assign k d s.store } s' →
      IsCkPacket P (ckNameAt P t) b kek d → (∃ digest, k = d.name ++ [digest]) → Tr P s s' (some t)
  | ckFailed (t b) : s.kekData ≠ none → s'.trace = s.trace ++ [.ck (ckNameAt P t) b, .error .encryptionFailure] →
      Keeps { s with ckName := ckNameAt P t, ckBits := b } s' → Tr P s s' (some t)
  | kekPublished (kek d k) : s'.trace = s.trace ++ [.kek kek, .published d] →
      Keeps { s with kekData := some kek, store := Storage.assign k d s.store } s' →
      IsCkPacket P s.ckName s.ckBits kek d → (∃ digest, k = d.name ++ [digest]) → Tr P s s' none
  | kekFailed (kek) : s'.trace = s.trace ++ [.kek kek, .error .encryptionFailure] → Keeps { s with kekData := some kek } s' → Tr P s s' none

theorem fetchKek_quiet (P : EncParams) (s : Encryptor) (n : Nat) (env : Env) :
    ∃ L, (s.fetchKek P n env).trace = s.trace ++ L ∧ (∀ e ∈ L, Neutral e) ∧ Keeps s (s.fetchKek P n env) := by
  unfold fetchKek
  split
  · exact ⟨[.error .general], rfl, by simp [Neutral], ⟨rfl, rfl, rfl, rfl⟩⟩
  · dsimp only
    split
    · exact ⟨[.express _ _], rfl, by simp [Neutral], ⟨rfl, rfl, rfl, rfl⟩⟩
    · refine ⟨[.express s.nextId (kekInterest P), .error .general], ?_, by simp [Neutral], ⟨rfl, rfl, rfl, rfl⟩⟩
      show (s.trace ++ [_]) ++ [_] = _
      rw [List.append_assoc]; rfl

theorem retry_quiet (P : EncParams) (s : Encryptor) (env : Env) :
    ∃ L, (s.retryFetchingKek P env).trace = s.trace ++ L ∧ (∀ e ∈ L, Neutral e) ∧ Keeps s (s.retryFetchingKek P env) := by
  unfold retryFetchingKek
  split
  · exact ⟨[], by simp, by simp, .rfl'⟩
  · obtain ⟨L, h1, h2, h3⟩ := fetchKek_quiet P { s with inProgress := true } 3 env
    exact ⟨L, h1, h2, ⟨h3.name, h3.bits, h3.kek, h3.store⟩⟩

theorem makeCkData_spec {P : EncParams} (hs : Signs P) {s : Encryptor} {kek : Data} {r : Nat} {k : Name} {d : Data}
    (h : makeCkData P s kek r = some (k, d)) : IsCkPacket P s.ckName s.ckBits kek d ∧ ∃ digest, k = d.name ++ [digest] := by
  unfold makeCkData at h
  split at h
  · cases h
  · next payload hp =>
    dsimp only at h
    split at h
    · cases h
    · next signed hsig =>
      split at h
      · next full hf =>
        cases h
        obtain ⟨h1, h2⟩ := hs.sign _ _ _ hsig
        refine ⟨⟨h1, r, payload, hp, ?_⟩, hs.full _ _ hf⟩
        rw [h2]
        show some _ = some _
        rw [Encrypt.C67_encoding_v2]
        rfl
      · cases h

theorem regenerate_tr {P : EncParams} (hs : Signs P) (s : Encryptor) (now bits env) : Tr P s (s.regenerateCk P now bits env) (some now) := by
  unfold regenerateCk
  rw [show Component.fromVersion now = .ok _ from fromNumberWithMarker_eq now 0xFD]
  dsimp only
  split
  · next hk =>
    obtain ⟨L, h1, h2, h3⟩ := retry_quiet P ({ s with ckName := ckNameAt P now, ckBits := bits }.emit (.ck (ckNameAt P now) bits)) env
    refine .ck now bits L hk ?_ h2 ⟨h3.name, h3.bits, h3.kek, h3.store⟩
    refine h1.trans ?_
    show (s.trace ++ [_]) ++ L = _
    rw [List.append_assoc]; rfl
  · next kd hk =>
    split
    · next full d hd =>
      obtain ⟨h1, h2⟩ := makeCkData_spec hs hd
      refine .ckPublished now bits kd d full hk ?_ ⟨rfl, rfl, rfl, rfl⟩ h1 h2
      show (s.trace ++ [_]) ++ [_] = _
      rw [List.append_assoc]; rfl
    · refine .ckFailed now bits ?_ ?_ ⟨rfl, rfl, rfl, rfl⟩
      · have hk : s.kekData = some kd := hk
        rw [hk]; simp
      · show (s.trace ++ [_]) ++ [_] = _
        rw [List.append_assoc]; rfl

/-- The time of a new CK. -/
def timeOf : EAct → Option Nat
  | .regenerateCk t _ _ => some t
  | _ => none

theorem step_tr {P : EncParams} (hs : Signs P) (s : Encryptor) (a : EAct) : Tr P s (s.step P a) (timeOf a) := by
  have nil : Tr P s s none := .quiet [] (by simp) (by simp) .rfl'
  cases a with
  | regenerateCk now bits env => exact regenerate_tr hs s now bits env
  | data id d env =>
    unfold step
    dsimp only
    split
    · unfold onData
      dsimp only
      split
      · next full d' hd =>
        obtain ⟨h1, h2⟩ := makeCkData_spec hs hd
        refine .kekPublished d d' full ?_ ⟨rfl, rfl, rfl, rfl⟩ h1 h2
        show (s.trace ++ [_]) ++ [_] = _
        rw [List.append_assoc]; rfl
      · refine .kekFailed d ?_ ⟨rfl, rfl, rfl, rfl⟩
        show (s.trace ++ [_]) ++ [_] = _
        rw [List.append_assoc]; rfl
    · exact nil
  | timeout id env =>
    unfold step
    dsimp only
    split
    · next n rest ht =>
      unfold onTimeout
      dsimp only
      split
      · obtain ⟨L, h1, h2, h3⟩ := fetchKek_quiet P { s with outstanding := rest, pendingId := 0 } (n - 1) env
        exact .quiet L h1 h2 ⟨h3.name, h3.bits, h3.kek, h3.store⟩
      · split
        · exact .quiet [.error .kekRetrievalTimeout] rfl (by simp [Neutral]) ⟨rfl, rfl, rfl, rfl⟩
        · refine .quiet [.error .kekRetrievalTimeout, .callLater 60000] ?_ (by simp [Neutral]) ⟨rfl, rfl, rfl, rfl⟩
          show (s.trace ++ [_]) ++ [_] = _
          rw [List.append_assoc]; rfl
    · exact nil
  | nack id env =>
    unfold step
    dsimp only
    split
    · next n rest ht =>
      unfold onNetworkNack
      dsimp only
      split
      · exact .quiet [.callLater 1000] rfl (by simp [Neutral]) ⟨rfl, rfl, rfl, rfl⟩
      · split
        · exact .quiet [.error .kekRetrievalFailure] rfl (by simp [Neutral]) ⟨rfl, rfl, rfl, rfl⟩
        · refine .quiet [.error .kekRetrievalFailure, .callLater 60000] ?_ (by simp [Neutral]) ⟨rfl, rfl, rfl, rfl⟩
          show (s.trace ++ [_]) ++ [_] = _
          rw [List.append_assoc]; rfl
    · exact nil
  | fire i env =>
    unfold step
    dsimp only
    split
    · next t ht =>
      unfold fire
      split
      · obtain ⟨L, h1, h2, h3⟩ := retry_quiet P { s with timers := s.timers.eraseIdx i } env
        exact .quiet L h1 h2 ⟨h3.name, h3.bits, h3.kek, h3.store⟩
      · next n =>
        obtain ⟨L, h1, h2, h3⟩ := fetchKek_quiet P { s with timers := s.timers.eraseIdx i } n env
        exact .quiet L h1 h2 ⟨h3.name, h3.bits, h3.kek, h3.store⟩
    · exact nil
  | interest name =>
    unfold step onInterest
    dsimp only
    split
    · next d hd =>
      obtain ⟨k, hk, _⟩ := (Storage.find_spec name s.store).1 d hd
      exact .put d rfl ⟨k, hk⟩ ⟨rfl, rfl, rfl, rfl⟩
    · exact nil
  | shutdown =>
    unfold step shutdown
    dsimp only
    split
    · exact .quiet [] (by simp) (by simp) ⟨rfl, rfl, rfl, rfl⟩
    · exact nil

/-- What the trace tells about the state. -/
structure Told (P : EncParams) (s : Encryptor) : Prop where
  ck : (cks s.trace).getLast? = some (s.ckName, s.ckBits)
  kek : (keks s.trace).getLast? = s.kekData
  keys : (s.store.map (·.1)).Nodup
  stored : ∀ k d, (k, d) ∈ s.store → (∃ digest, k = d.name ++ [digest]) ∧ .published d ∈ s.trace
  kept : ∀ d, .published d ∈ s.trace → ∃ k d', (k, d') ∈ s.store ∧ d'.name = d.name
  right : ∀ a d b, s.trace = a ++ .published d :: b →
    ∃ n bits kek, (cks a).getLast? = some (n, bits) ∧ (keks a).getLast? = some kek ∧ IsCkPacket P n bits kek d
  prompt : ∀ a e b, s.trace = a ++ e :: b → ((∃ n bits, e = .ck n bits ∧ keks a ≠ []) ∨ ∃ kek, e = .kek kek) →
    (∃ d b', b = .published d :: b') ∨ ∃ b', b = .error .encryptionFailure :: b'
  put : ∀ a d b, s.trace = a ++ .putData d :: b → .published d ∈ a

theorem cks_append (a b : List EEv) : cks (a ++ b) = cks a ++ cks b := List.filterMap_append
theorem keks_append (a b : List EEv) : keks (a ++ b) = keks a ++ keks b := List.filterMap_append

theorem cks_neutral {L : List EEv} (h : ∀ e ∈ L, Neutral e) : cks L = [] := by
  unfold cks
  rw [List.filterMap_eq_nil_iff]
  intro e he
  have := h e he
  cases e <;> first | rfl | exact absurd this id
theorem keks_neutral {L : List EEv} (h : ∀ e ∈ L, Neutral e) : keks L = [] := by
  unfold keks
  rw [List.filterMap_eq_nil_iff]
  intro e he
  have := h e he
  cases e <;> first | rfl | exact absurd this id

theorem start_told {P : EncParams} (now bits env) : Told P (start P now bits env) := by
  have hL : ∃ L, (start P now bits env).trace = .ck (ckNameAt P now) bits :: L ∧ (∀ e ∈ L, Neutral e) ∧
      Keeps { ckName := ckNameAt P now, ckBits := bits } (start P now bits env) := by
    unfold start regenerateCk
    rw [show Component.fromVersion now = .ok _ from fromNumberWithMarker_eq now 0xFD]
    obtain ⟨L, h1, h2, h3⟩ := retry_quiet P (({ ckName := ckNameAt P now, ckBits := bits } : Encryptor).emit (.ck (ckNameAt P now) bits)) env
    exact ⟨L, h1, h2, ⟨h3.name, h3.bits, h3.kek, h3.store⟩⟩
  obtain ⟨L, h1, h2, h3⟩ := hL
  have hstore := h3.store
  dsimp only at hstore
  have hmem : ∀ e, e ∈ (start P now bits env).trace → e = .ck (ckNameAt P now) bits ∨ Neutral e := by
    intro e he
    rw [h1] at he
    rcases List.mem_cons.mp he with rfl | he
    · exact .inl rfl
    · exact .inr (h2 e he)
  constructor
  · rw [h1, show EEv.ck (ckNameAt P now) bits :: L = [.ck (ckNameAt P now) bits] ++ L from rfl, cks_append, cks_neutral h2, h3.name, h3.bits]
    rfl
  · rw [h1, show EEv.ck (ckNameAt P now) bits :: L = [.ck (ckNameAt P now) bits] ++ L from rfl, keks_append, keks_neutral h2, h3.kek]
    rfl
  · rw [hstore]; exact List.nodup_nil
  · intro k d h
    rw [hstore] at h
    cases h
  · intro d h
    rcases hmem _ h with h | h
    · cases h
    · exact absurd h id
  · intro a d b h
    rcases hmem (.published d) (by rw [h]; simp) with h | h
    · cases h
    · exact absurd h id
  · intro a e b h he
    rcases he with ⟨n, bs, rfl, hk⟩ | ⟨kek, rfl⟩
    · exfalso
      rw [h1] at h
      cases a with
      | nil => exact hk rfl
      | cons x a =>
        simp only [List.cons_append, List.cons.injEq] at h
        have := h2 (.ck n bs) (by rw [h.2]; simp)
        exact this
    · rcases hmem (.kek kek) (by rw [h]; simp) with h | h
      · cases h
      · exact absurd h id
  · intro a d b h
    rcases hmem (.putData d) (by rw [h]; simp) with h | h
    · cases h
    · exact absurd h id

/-- The fields about the trace, if what is new is right. -/
theorem trace_told {P : EncParams} {s s' : Encryptor} (ht : Told P s) {L : List EEv} (hL : s'.trace = s.trace ++ L)
    (right : ∀ a d b, L = a ++ .published d :: b →
      ∃ n bits kek, (cks (s.trace ++ a)).getLast? = some (n, bits) ∧ (keks (s.trace ++ a)).getLast? = some kek ∧ IsCkPacket P n bits kek d)
    (prompt : ∀ a e b, L = a ++ e :: b → ((∃ n bits, e = .ck n bits ∧ keks (s.trace ++ a) ≠ []) ∨ ∃ kek, e = .kek kek) →
      (∃ d b', b = .published d :: b') ∨ ∃ b', b = .error .encryptionFailure :: b')
    (put : ∀ a d b, L = a ++ .putData d :: b → .published d ∈ s.trace ++ a) :
    (∀ a d b, s'.trace = a ++ .published d :: b →
      ∃ n bits kek, (cks a).getLast? = some (n, bits) ∧ (keks a).getLast? = some kek ∧ IsCkPacket P n bits kek d) ∧
    (∀ a e b, s'.trace = a ++ e :: b → ((∃ n bits, e = .ck n bits ∧ keks a ≠ []) ∨ ∃ kek, e = .kek kek) →
      (∃ d b', b = .published d :: b') ∨ ∃ b', b = .error .encryptionFailure :: b') ∧
    (∀ a d b, s'.trace = a ++ .putData d :: b → .published d ∈ a) := by
  rw [hL]
  refine ⟨fun a d b h => ?_, fun a e b h he => ?_, fun a d b h => ?_⟩
  · rcases split_append h with ⟨b', h1, _⟩ | ⟨a', rfl, h2⟩
    · exact ht.right a d b' h1
    · exact right a' d b h2
  · rcases split_append h with ⟨b', h1, rfl⟩ | ⟨a', rfl, h2⟩
    · rcases ht.prompt a e b' h1 he with ⟨d, c, rfl⟩ | ⟨c, rfl⟩
      · exact .inl ⟨d, c ++ L, rfl⟩
      · exact .inr ⟨c ++ L, rfl⟩
    · exact prompt a' e b h2 he
  · rcases split_append h with ⟨b', h1, _⟩ | ⟨a', rfl, h2⟩
    · exact ht.put a d b' h1
    · exact put a' d b h2

/-- The fields about the storage, if a packet is put in it. -/
theorem store_told {P : EncParams} {s s' : Encryptor} (ht : Told P s) {k : Name} {d : Data} {L : List EEv} (hL : s'.trace = s.trace ++ L)
    (hs : s'.store = Storage.assign k d s.store) (hk : ∃ digest, k = d.name ++ [digest]) (hd : ∀ x, .published x ∈ L ↔ x = d) :
    (s'.store.map (·.1)).Nodup ∧
    (∀ k d, (k, d) ∈ s'.store → (∃ digest, k = d.name ++ [digest]) ∧ .published d ∈ s'.trace) ∧
    (∀ d, .published d ∈ s'.trace → ∃ k d', (k, d') ∈ s'.store ∧ d'.name = d.name) := by
  obtain ⟨h1, h2⟩ := Storage.assign_spec k d s.store ht.keys
  rw [hs, hL]
  refine ⟨h1, fun k' d' h => ?_, fun x hx => ?_⟩
  · rw [h2] at h
    split at h
    · next he =>
      subst he h
      exact ⟨hk, List.mem_append_right _ ((hd _).mpr rfl)⟩
    · obtain ⟨g1, g2⟩ := ht.stored k' d' h
      exact ⟨g1, List.mem_append_left _ g2⟩
  · have new : (k, d) ∈ Storage.assign k d s.store := by rw [h2, if_pos rfl]
    rcases List.mem_append.mp hx with hx | hx
    · obtain ⟨k', d', g1, g2⟩ := ht.kept x hx
      by_cases he : k' = k
      · subst he
        obtain ⟨c1, hc1⟩ := hk
        obtain ⟨⟨c2, hc2⟩, _⟩ := ht.stored k' d' g1
        rw [hc1] at hc2
        exact ⟨k', d, new, by rw [← g2]; exact (List.append_inj' hc2 rfl).1⟩
      · exact ⟨k', d', by rw [h2, if_neg he]; exact g1, g2⟩
    · rw [(hd x).mp hx]
      exact ⟨k, d, new, rfl⟩

theorem same_store_told {P : EncParams} {s s' : Encryptor} (ht : Told P s) {L : List EEv} (hL : s'.trace = s.trace ++ L)
    (hs : s'.store = s.store) (hd : ∀ x, .published x ∉ L) :
    (s'.store.map (·.1)).Nodup ∧
    (∀ k d, (k, d) ∈ s'.store → (∃ digest, k = d.name ++ [digest]) ∧ .published d ∈ s'.trace) ∧
    (∀ d, .published d ∈ s'.trace → ∃ k d', (k, d') ∈ s'.store ∧ d'.name = d.name) := by
  rw [hs, hL]
  refine ⟨ht.keys, fun k d h => ⟨(ht.stored k d h).1, List.mem_append_left _ (ht.stored k d h).2⟩, fun d h => ?_⟩
  rcases List.mem_append.mp h with h | h
  · exact ht.kept d h
  · exact absurd h (hd d)

theorem two {α : Type} {x y e : α} {a b : List α} (h : [x, y] = a ++ e :: b) : (a = [] ∧ e = x ∧ b = [y]) ∨ (a = [x] ∧ e = y ∧ b = []) := by
  cases a with
  | nil => simp only [List.nil_append, List.cons.injEq] at h; exact .inl ⟨rfl, h.1.symm, h.2.symm⟩
  | cons z a =>
    simp only [List.cons_append, List.cons.injEq] at h
    obtain ⟨rfl, h⟩ := h
    cases a with
    | nil => simp only [List.nil_append, List.cons.injEq] at h; exact .inr ⟨rfl, h.1.symm, h.2.symm⟩
    | cons w a => simp at h

theorem told_step {P : EncParams} {s s' : Encryptor} {o : Option Nat} (ht : Told P s) (h : Tr P s s' o) : Told P s' := by
  cases h with
  | quiet L h1 h2 h3 =>
    have mem : ∀ a e b, L = a ++ e :: b → Neutral e := fun a e b h => h2 e (by rw [h]; simp)
    obtain ⟨r, p, u⟩ := trace_told (P := P) ht h1 (fun a d b h => absurd (mem _ _ _ h) id)
      (fun a e b h he => by
        have := mem _ _ _ h
        rcases he with ⟨n, bs, rfl, _⟩ | ⟨k, rfl⟩ <;> exact absurd this id)
      (fun a d b h => absurd (mem _ _ _ h) id)
    obtain ⟨k1, k2, k3⟩ := same_store_told ht h1 h3.store (fun x hx => h2 _ hx)
    refine ⟨?_, ?_, k1, k2, k3, r, p, u⟩
    · rw [h1, cks_append, cks_neutral h2, List.append_nil, h3.name, h3.bits]; exact ht.ck
    · rw [h1, keks_append, keks_neutral h2, List.append_nil, h3.kek]; exact ht.kek
  | put d h1 h2 h3 =>
    have one : ∀ a e b, [EEv.putData d] = a ++ e :: b → a = [] ∧ e = .putData d := by
      intro a e b h
      cases a with
      | nil => simp only [List.nil_append, List.cons.injEq] at h; exact ⟨rfl, h.1.symm⟩
      | cons z a => simp at h
    obtain ⟨r, p, u⟩ := trace_told (P := P) ht h1 (fun a x b h => by cases (one _ _ _ h).2)
      (fun a e b h he => by
        have := (one _ _ _ h).2
        subst this
        rcases he with ⟨n, bs, he, _⟩ | ⟨k, he⟩ <;> cases he)
      (fun a x b h => by
        obtain ⟨rfl, he⟩ := one _ _ _ h
        cases he
        obtain ⟨k, hk⟩ := h2
        rw [List.append_nil]
        exact (ht.stored k d hk).2)
    obtain ⟨k1, k2, k3⟩ := same_store_told ht h1 h3.store (fun x hx => by simp at hx)
    refine ⟨?_, ?_, k1, k2, k3, r, p, u⟩
    · rw [h1, cks_append, h3.name, h3.bits]; simpa [cks] using ht.ck
    · rw [h1, keks_append, h3.kek]; simpa [keks] using ht.kek
  | ck t b L h0 h1 h2 h3 =>
    have nokek : keks s.trace = [] := List.getLast?_eq_none_iff.mp (by rw [ht.kek, h0])
    have mem : ∀ a e c, .ck (ckNameAt P t) b :: L = a ++ e :: c → (a = [] ∧ e = .ck (ckNameAt P t) b) ∨ Neutral e := by
      intro a e c h
      cases a with
      | nil => simp only [List.nil_append, List.cons.injEq] at h; exact .inl ⟨rfl, h.1.symm⟩
      | cons z a =>
        simp only [List.cons_append, List.cons.injEq] at h
        exact .inr (h2 e (by rw [h.2]; simp))
    obtain ⟨r, p, u⟩ := trace_told (P := P) ht h1
      (fun a d c h => by
        rcases mem _ _ _ h with ⟨_, h⟩ | h
        · cases h
        · exact absurd h id)
      (fun a e c h he => by
        rcases mem _ _ _ h with ⟨rfl, rfl⟩ | h
        · rcases he with ⟨n, bs, he, hk⟩ | ⟨k, he⟩
          · rw [List.append_nil] at hk; exact absurd nokek hk
          · cases he
        · rcases he with ⟨n, bs, rfl, _⟩ | ⟨k, rfl⟩ <;> exact absurd h id)
      (fun a d c h => by
        rcases mem _ _ _ h with ⟨_, h⟩ | h
        · cases h
        · exact absurd h id)
    obtain ⟨k1, k2, k3⟩ := same_store_told ht h1 h3.store (fun x hx => by
      rcases List.mem_cons.mp hx with hx | hx
      · cases hx
      · exact h2 _ hx)
    refine ⟨?_, ?_, k1, k2, k3, r, p, u⟩
    · rw [h1, show EEv.ck (ckNameAt P t) b :: L = [.ck (ckNameAt P t) b] ++ L from rfl, cks_append, cks_append, cks_neutral h2, h3.name, h3.bits,
        List.append_nil]
      exact List.getLast?_concat
    · rw [h1, show EEv.ck (ckNameAt P t) b :: L = [.ck (ckNameAt P t) b] ++ L from rfl, keks_append, keks_append, keks_neutral h2, h3.kek, nokek]
      exact h0.symm
  | ckPublished t b kek d k h0 h1 h3 h4 h5 =>
    have hkek : (keks s.trace).getLast? = some kek := by rw [ht.kek, h0]
    obtain ⟨r, p, u⟩ := trace_told (P := P) ht h1
      (fun a x c h => by
        rcases two h with ⟨_, he, _⟩ | ⟨rfl, he, _⟩
        · cases he
        · cases he
          refine ⟨ckNameAt P t, b, kek, ?_, ?_, h4⟩
          · rw [cks_append]; exact List.getLast?_concat
          · rw [keks_append, show keks [EEv.ck (ckNameAt P t) b] = [] from rfl, List.append_nil]; exact hkek)
      (fun a e c h he => by
        rcases two h with ⟨_, rfl, rfl⟩ | ⟨_, rfl, _⟩
        · exact .inl ⟨d, [], rfl⟩
        · rcases he with ⟨n, bs, he, _⟩ | ⟨k, he⟩ <;> cases he)
      (fun a x c h => by
        rcases two h with ⟨_, he, _⟩ | ⟨_, he, _⟩ <;> cases he)
    obtain ⟨k1, k2, k3⟩ := store_told ht h1 h3.store h5 (fun x => by simp)
    refine ⟨?_, ?_, k1, k2, k3, r, p, u⟩
    · rw [h1, cks_append, h3.name, h3.bits]; exact List.getLast?_concat
    · rw [h1, keks_append, h3.kek, show keks [EEv.ck (ckNameAt P t) b, .published d] = [] from rfl, List.append_nil]; exact ht.kek
  | ckFailed t b h0 h1 h3 =>
    obtain ⟨r, p, u⟩ := trace_told (P := P) ht h1
      (fun a x c h => by rcases two h with ⟨_, he, _⟩ | ⟨_, he, _⟩ <;> cases he)
      (fun a e c h he => by
        rcases two h with ⟨_, rfl, rfl⟩ | ⟨_, rfl, _⟩
        · exact .inr ⟨[], rfl⟩
        · rcases he with ⟨n, bs, he, _⟩ | ⟨k, he⟩ <;> cases he)
      (fun a x c h => by rcases two h with ⟨_, he, _⟩ | ⟨_, he, _⟩ <;> cases he)
    obtain ⟨k1, k2, k3⟩ := same_store_told ht h1 h3.store (fun x hx => by simp at hx)
    refine ⟨?_, ?_, k1, k2, k3, r, p, u⟩
    · rw [h1, cks_append, h3.name, h3.bits]; exact List.getLast?_concat
    · rw [h1, keks_append, h3.kek, show keks [EEv.ck (ckNameAt P t) b, .error .encryptionFailure] = [] from rfl, List.append_nil]; exact ht.kek
  | kekPublished kek d k h1 h3 h4 h5 =>
    obtain ⟨r, p, u⟩ := trace_told (P := P) ht h1
      (fun a x c h => by
        rcases two h with ⟨_, he, _⟩ | ⟨rfl, he, _⟩
        · cases he
        · cases he
          refine ⟨s.ckName, s.ckBits, kek, ?_, ?_, h4⟩
          · rw [cks_append, show cks [EEv.kek kek] = [] from rfl, List.append_nil]; exact ht.ck
          · rw [keks_append]; exact List.getLast?_concat)
      (fun a e c h he => by
        rcases two h with ⟨_, rfl, rfl⟩ | ⟨_, rfl, _⟩
        · exact .inl ⟨d, [], rfl⟩
        · rcases he with ⟨n, bs, he, _⟩ | ⟨k, he⟩ <;> cases he)
      (fun a x c h => by rcases two h with ⟨_, he, _⟩ | ⟨_, he, _⟩ <;> cases he)
    obtain ⟨k1, k2, k3⟩ := store_told ht h1 h3.store h5 (fun x => by simp)
    refine ⟨?_, ?_, k1, k2, k3, r, p, u⟩
    · rw [h1, cks_append, h3.name, h3.bits, show cks [EEv.kek kek, .published d] = [] from rfl, List.append_nil]; exact ht.ck
    · rw [h1, keks_append, h3.kek]; exact List.getLast?_concat
  | kekFailed kek h1 h3 =>
    obtain ⟨r, p, u⟩ := trace_told (P := P) ht h1
      (fun a x c h => by rcases two h with ⟨_, he, _⟩ | ⟨_, he, _⟩ <;> cases he)
      (fun a e c h he => by
        rcases two h with ⟨_, rfl, rfl⟩ | ⟨_, rfl, _⟩
        · exact .inr ⟨[], rfl⟩
        · rcases he with ⟨n, bs, he, _⟩ | ⟨k, he⟩ <;> cases he)
      (fun a x c h => by rcases two h with ⟨_, he, _⟩ | ⟨_, he, _⟩ <;> cases he)
    obtain ⟨k1, k2, k3⟩ := same_store_told ht h1 h3.store (fun x hx => by simp at hx)
    refine ⟨?_, ?_, k1, k2, k3, r, p, u⟩
    · rw [h1, cks_append, h3.name, h3.bits, show cks [EEv.kek kek, .error .encryptionFailure] = [] from rfl, List.append_nil]; exact ht.ck
    · rw [h1, keks_append, h3.kek]; exact List.getLast?_concat

theorem run_told {P : EncParams} (hs : Signs P) (now bits env) (acts : List EAct) : Told P (run P now bits env acts) :=
  run_induction P now bits env (Q := fun _ s => Told P s) (start_told now bits env) (fun _ a ih => told_step ih (step_tr hs _ a)) acts

/-! ### What is published -/

/-- C68: each packet that is published carries the CK of its time, encrypted with the last KEK that was received. -/
theorem C68_published {P : EncParams} (hs : Signs P) (now bits env) (acts : List EAct) (a b : List EEv) (d : Data)
    (h : (run P now bits env acts).trace = a ++ .published d :: b) :
    ∃ name ckBits kek, (cks a).getLast? = some (name, ckBits) ∧ (keks a).getLast? = some kek ∧ IsCkPacket P name ckBits kek d :=
  (run_told hs now bits env acts).right a d b h

/-- C68: each CK that is made when there is a KEK, and the CK of the time when a KEK is received, is published at once, or the application
is told that it could not be encrypted. -/
theorem C68_prompt {P : EncParams} (hs : Signs P) (now bits env) (acts : List EAct) (a b : List EEv) (e : EEv)
    (h : (run P now bits env acts).trace = a ++ e :: b) (he : (∃ name ckBits, e = .ck name ckBits ∧ keks a ≠ []) ∨ ∃ kek, e = .kek kek) :
    (∃ d b', b = .published d :: b') ∨ ∃ b', b = .error .encryptionFailure :: b' :=
  (run_told hs now bits env acts).prompt a e b h he

/-- C68: `encrypt` uses the last CK, tells its name and keeps the initial vector. -/
theorem C68_encrypt {P : EncParams} (hs : Signs P) (now bits env) (acts : List EAct) (plain iv : Bytes) :
    ∃ name ckBits, (cks (run P now bits env acts).trace).getLast? = some (name, ckBits) ∧
      (run P now bits env acts).encrypt P plain iv =
        { keyLocator := { type := some 1, keyName := name }, initialVector := some iv, payload := some (P.aes.encrypt ckBits iv (pad plain)) } :=
  ⟨_, _, (run_told hs now bits env acts).ck, rfl⟩

theorem cks_tr {P : EncParams} {s s' : Encryptor} {o : Option Nat} (h : Tr P s s' o) :
    (cks s'.trace).map (·.1) = (cks s.trace).map (·.1) ++ o.toList.map (ckNameAt P) := by
  cases h with
  | quiet L h1 h2 h3 => rw [h1, cks_append, cks_neutral h2]; simp
  | put d h1 h2 h3 => rw [h1, cks_append]; simp [cks]
  | ck t b L h0 h1 h2 h3 =>
    rw [h1, show EEv.ck (ckNameAt P t) b :: L = [.ck (ckNameAt P t) b] ++ L from rfl, cks_append, cks_append, cks_neutral h2]
    simp [cks]
  | ckPublished t b kek d k h0 h1 h3 h4 h5 => rw [h1, cks_append]; simp [cks]
  | ckFailed t b h0 h1 h3 => rw [h1, cks_append]; simp [cks]
  | kekPublished kek d k h1 h3 h4 h5 => rw [h1, cks_append]; simp [cks]
  | kekFailed kek h1 h3 => rw [h1, cks_append]; simp [cks]

theorem cks_run {P : EncParams} (hs : Signs P) (now bits env) (acts : List EAct) :
    (cks (run P now bits env acts).trace).map (·.1) = (times now acts).map (ckNameAt P) := by
  refine run_induction P now bits env (Q := fun acts s => (cks s.trace).map (·.1) = (times now acts).map (ckNameAt P)) ?_ ?_ acts
  · exact cks_tr (regenerate_tr hs {} now bits env)
  · intro acts a ih
    rw [cks_tr (step_tr hs _ a), ih]
    have : times now (acts ++ [a]) = times now acts ++ (timeOf a).toList := by
      unfold times
      rw [List.filterMap_append, List.cons_append]
      cases a <;> rfl
    rw [this, List.map_append]

theorem nonNeg_inj {a b : Nat} (ha : a < 2 ^ 64) (hb : b < 2 ^ 64) (h : nonNeg a = nonNeg b) : a = b := by
  rw [← accumulate_nonNeg a ha, ← accumulate_nonNeg b hb, h]

/-- Two CK names, one of which begins with the values of the other, are of the same time. -/
theorem ckName_under {P : EncParams} {a b : Nat} (ha : a < 2 ^ 64) (hb : b < 2 ^ 64) {rest : Name}
    (h : under (ckNameAt P a) (ckNameAt P b ++ rest)) : a = b := by
  unfold under ckNameAt at h
  obtain ⟨t, ht⟩ := h
  simp only [List.map_append, List.map_cons, List.map_nil, List.append_assoc, List.append_cancel_left_eq, List.cons_append, List.nil_append,
    List.cons.injEq, true_and] at ht
  exact nonNeg_inj ha hb ht.1

/-- C68: an Interest for the name of a CK that was published, at any later time, is answered with a packet that carries this CK, encrypted
with a KEK that was received; if CKs are made at different times. -/
theorem C68_served_partial {P : EncParams} (hs : Signs P) (now bits env) (acts : List EAct)
    (hn : (times now acts).Nodup) (hsmall : ∀ t ∈ times now acts, t < 2 ^ 64) (name : Name) (ckBits : Bytes) (kek d : Data)
    (hck : .ck name ckBits ∈ (run P now bits env acts).trace) (hp : .published d ∈ (run P now bits env acts).trace)
    (hd : d.name = name ++ [encryptedBy] ++ kek.name) :
    ∃ kek' d', .kek kek' ∈ (run P now bits env acts).trace ∧ IsCkPacket P name ckBits kek' d' ∧
      (run P now bits env (acts ++ [.interest name])).trace = (run P now bits env acts).trace ++ [.putData d'] := by
  have ht := run_told hs now bits env acts
  have hcks := cks_run hs now bits env acts
  rw [run_snoc]
  generalize run P now bits env acts = s at *
  have mem_cks : ∀ {n b}, .ck n b ∈ s.trace → (n, b) ∈ cks s.trace := by
    intro n b h
    exact List.mem_filterMap.mpr ⟨_, h, rfl⟩
  have time : ∀ {n b}, (n, b) ∈ cks s.trace → ∃ t ∈ times now acts, n = ckNameAt P t := by
    intro n b h
    have : n ∈ (cks s.trace).map (·.1) := List.mem_map.mpr ⟨_, h, rfl⟩
    rw [hcks] at this
    obtain ⟨t, h1, h2⟩ := List.mem_map.mp this
    exact ⟨t, h1, h2.symm⟩
  obtain ⟨t, ht1, rfl⟩ := time (mem_cks hck)
  -- a packet is found
  obtain ⟨k, d0, hk, hd0⟩ := ht.kept d hp
  obtain ⟨⟨dig, hdig⟩, _⟩ := ht.stored k d0 hk
  have hund : under (ckNameAt P t) k := by
    rw [hdig, hd0, hd, List.append_assoc, List.append_assoc]
    unfold under
    rw [List.map_append]
    exact List.prefix_append _ _
  cases hf : Storage.find (ckNameAt P t) s.store with
  | none => exact absurd hund ((Storage.find_spec _ _).2 hf k d0 hk)
  | some d' =>
    obtain ⟨k', hk', hu'⟩ := (Storage.find_spec _ _).1 d' hf
    obtain ⟨⟨dig', hdig'⟩, hpub⟩ := ht.stored k' d' hk'
    obtain ⟨x, y, hxy⟩ := List.append_of_mem hpub
    obtain ⟨n', b', kek', c1, c2, c3⟩ := ht.right x d' y hxy
    have m1 : (n', b') ∈ cks s.trace := by
      rw [hxy, cks_append]
      exact List.mem_append_left _ (List.mem_of_getLast? c1)
    have m2 : .kek kek' ∈ s.trace := by
      have := List.mem_of_getLast? c2
      obtain ⟨e, he, h2⟩ := List.mem_filterMap.mp this
      rw [hxy]
      refine List.mem_append_left _ ?_
      cases e <;> cases h2
      exact he
    obtain ⟨t', ht', rfl⟩ := time m1
    rw [hdig', c3.1, List.append_assoc, List.append_assoc] at hu'
    have heq := ckName_under (hsmall t ht1) (hsmall t' ht') hu'
    subst heq
    have nd : ((cks s.trace).map (·.1)).Nodup := by
      rw [hcks, List.nodup_iff_pairwise_ne, List.pairwise_map]
      refine List.Pairwise.imp_of_mem ?_ (List.nodup_iff_pairwise_ne.mp hn)
      intro a b ha hb hne h
      refine hne (ckName_under (P := P) (hsmall a ha) (hsmall b hb) (rest := []) ?_)
      rw [h, List.append_nil]
      exact List.prefix_refl _
    have hb : ckBits = b' := by
      have gen : ∀ l : List (Name × Bytes), (l.map (·.1)).Nodup → ∀ n b b', (n, b) ∈ l → (n, b') ∈ l → b = b' := by
        intro l
        induction l with
        | nil => intro _ n b b' h; cases h
        | cons x l ih =>
          intro hnd n b b' h h'
          rw [List.map_cons, List.nodup_cons] at hnd
          rcases List.mem_cons.mp h with e1 | e1 <;> rcases List.mem_cons.mp h' with e2 | e2
          · rw [← e1] at e2; cases e2; rfl
          · subst e1
            exact absurd (List.mem_map.mpr ⟨(n, b'), e2, rfl⟩ : n ∈ l.map (·.1)) hnd.1
          · subst e2
            exact absurd (List.mem_map.mpr ⟨(n, b), e1, rfl⟩ : n ∈ l.map (·.1)) hnd.1
          · exact ih hnd.2 n b b' e1 e2
      exact gen _ nd _ _ _ (mem_cks hck) m1
    subst hb
    refine ⟨kek', d', m2, c3, ?_⟩
    show (s.onInterest (ckNameAt P t)).trace = _
    unfold onInterest
    rw [hf]
    rfl

/-! ### The end of a retrieval -/

/-- There is a KEK, and nothing is under way. -/
structure Settled (s : Encryptor) (kek : Data) : Prop where
  kek : s.kekData = some kek
  outstanding : s.outstanding = []
  timers : s.timers = []

/-- What a settled encryptor does. -/
theorem settled_step (P : EncParams) {s : Encryptor} {kek : Data} (h : Settled s kek) (a : EAct) :
    Settled (s.step P a) kek ∧ ∃ L, (s.step P a).trace = s.trace ++ L ∧ (∀ e ∈ L, (∀ id i, e ≠ .express id i) ∧ ∀ d, e ≠ .kek d) ∧
      ((∀ b r, P.rsaEncrypt kek.content b r = none) → ∀ d, .published d ∉ L) := by
  have nil : ∃ L, s.trace = s.trace ++ L ∧ (∀ e ∈ L, (∀ id i, e ≠ .express id i) ∧ ∀ d, e ≠ .kek d) ∧
      ((∀ b r, P.rsaEncrypt kek.content b r = none) → ∀ d, .published d ∉ L) := ⟨[], by simp, by simp, by simp⟩
  cases a with
  | regenerateCk now bits env =>
    unfold step regenerateCk
    dsimp only
    rw [show Component.fromVersion now = .ok _ from fromNumberWithMarker_eq now 0xFD]
    dsimp only
    split
    · next hk =>
      have hk : s.kekData = none := hk
      rw [h.kek] at hk; cases hk
    · next kd hk =>
      have hk : s.kekData = some kd := hk
      rw [h.kek] at hk
      cases hk
      split
      · next full d hd =>
        refine ⟨⟨h.kek, h.outstanding, h.timers⟩, [.ck (ckNameAt P now) bits, .published d], ?_, by simp, fun hno => ?_⟩
        · show (s.trace ++ [_]) ++ [_] = _
          rw [List.append_assoc]; rfl
        · unfold makeCkData at hd
          rw [hno] at hd
          cases hd
      · refine ⟨⟨h.kek, h.outstanding, h.timers⟩, [.ck (ckNameAt P now) bits, .error .encryptionFailure], ?_, by simp, fun hno => by simp⟩
        show (s.trace ++ [_]) ++ [_] = _
        rw [List.append_assoc]; rfl
  | data id d env =>
    unfold step
    rw [h.outstanding]
    exact ⟨h, nil⟩
  | timeout id env =>
    unfold step
    rw [h.outstanding]
    exact ⟨h, nil⟩
  | nack id env =>
    unfold step
    rw [h.outstanding]
    exact ⟨h, nil⟩
  | fire i env =>
    unfold step
    rw [h.timers]
    exact ⟨h, nil⟩
  | interest name =>
    unfold step onInterest
    dsimp only
    split
    · exact ⟨⟨h.kek, h.outstanding, h.timers⟩, [.putData _], rfl, by simp, by simp⟩
    · exact ⟨h, nil⟩
  | shutdown =>
    unfold step shutdown
    dsimp only
    split
    · exact ⟨⟨h.kek, by show s.outstanding.filter _ = []; rw [h.outstanding]; rfl, h.timers⟩, nil⟩
    · exact ⟨h, nil⟩

theorem settled_run (P : EncParams) (acts : List EAct) : ∀ {s : Encryptor} {kek : Data}, Settled s kek →
    ∃ L, (acts.foldl (step P) s).trace = s.trace ++ L ∧ (∀ e ∈ L, (∀ id i, e ≠ .express id i) ∧ ∀ d, e ≠ .kek d) ∧
      ((∀ b r, P.rsaEncrypt kek.content b r = none) → ∀ d, .published d ∉ L) := by
  induction acts with
  | nil => exact fun _ => ⟨[], by simp, by simp, by simp⟩
  | cons a acts ih =>
    intro s kek h
    obtain ⟨h1, L, h2, h3, h4⟩ := settled_step P h a
    obtain ⟨L', g2, g3, g4⟩ := ih h1
    refine ⟨L ++ L', ?_, ?_, ?_⟩
    · rw [List.foldl_cons, g2, h2, List.append_assoc]
    · intro e he
      rcases List.mem_append.mp he with he | he
      · exact h3 e he
      · exact g3 e he
    · intro hno d hd
      rcases List.mem_append.mp hd with hd | hd
      · exact h4 hno d hd
      · exact g4 hno d hd

theorem foldl_run (P : EncParams) (now bits env) (acts more : List EAct) :
    run P now bits env (acts ++ more) = more.foldl (step P) (run P now bits env acts) := List.foldl_append

/-- C68: once there is a KEK, no Interest is waiting and nothing is scheduled, the encryptor never asks for a KEK again, whatever follows. -/
theorem C68_settled (P : EncParams) (now bits env) (acts more : List EAct)
    (hk : (run P now bits env acts).kekData ≠ none) (ho : (run P now bits env acts).outstanding = []) (ht : (run P now bits env acts).timers = []) :
    ∃ L, (run P now bits env (acts ++ more)).trace = (run P now bits env acts).trace ++ L ∧ ∀ e ∈ L, (∀ id i, e ≠ .express id i) ∧ ∀ d, e ≠ .kek d := by
  rw [foldl_run]
  cases hd : (run P now bits env acts).kekData with
  | none => exact absurd hd hk
  | some kek =>
    obtain ⟨L, h1, h2, _⟩ := settled_run P more ⟨hd, ho, ht⟩
    exact ⟨L, h1, h2⟩

/-- C68: so if the KEK that was received is of no use, no CK is ever published. -/
theorem C68_bad_kek (P : EncParams) (now bits env) (acts more : List EAct) (kek : Data) (hk : (run P now bits env acts).kekData = some kek)
    (ho : (run P now bits env acts).outstanding = []) (ht : (run P now bits env acts).timers = [])
    (hbad : ∀ b r, P.rsaEncrypt kek.content b r = none) :
    ∃ L, (run P now bits env (acts ++ more)).trace = (run P now bits env acts).trace ++ L ∧ ∀ d, .published d ∉ L := by
  rw [foldl_run]
  obtain ⟨L, h1, _, h2⟩ := settled_run P more ⟨hk, ho, ht⟩
  exact ⟨L, h1, h2 hbad⟩

end Encryptor
end Nac
end PyNDN
