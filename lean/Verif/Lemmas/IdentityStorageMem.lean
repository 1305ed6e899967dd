import Verif.Lemmas.IdentityStorage
/-
The storage in memory gives what is specified while nothing is deleted.
-/
namespace PyNDN.IdentityStorage
open PyNDN PyNDN.Spec PyNDN.Spec.IdentityStorage

structure MRep (m : Mem) (K : Known) : Prop where
  ok : Ok K
  keyId : ∀ k d, K.key k = some d → K.identity k.dropLast = true
  certKey : ∀ n k e, K.cert n = some (k, e) → ∃ d, K.key k = some d
  ids : ∀ r, r ∈ m.ids ↔ ∃ n, K.identity n = true ∧ r = (uriOf n, K.defaultKey n)
  default : m.default = (K.defaultIdentity.map uriOf).getD []
  keys : ∀ r, r ∈ m.keys ↔ ∃ k d, K.key k = some d ∧ r = (uriOf k, d, K.defaultCert k)
  certs : ∀ r, r ∈ m.certs ↔ ∃ n k e, K.cert n = some (k, e) ∧ r = (uriOf n, e)

variable {m : Mem} {K : Known}

theorem mem_hasId (h : MRep m K) {i : Name} (hi : Generic i) : (m.ids.any fun r => r.1 = uriOf i) = K.identity i := by
  rw [Bool.eq_iff_iff, List.any_eq_true]
  constructor
  · rintro ⟨r, h1, h2⟩
    obtain ⟨n, h3, rfl⟩ := (h.ids r).mp h1
    rw [decide_eq_true_iff] at h2
    exact (uri_iff (h.ok.ids n h3) hi).mp h2 ▸ h3
  · intro h1
    exact ⟨_, (h.ids _).mpr ⟨i, h1, rfl⟩, by simp⟩

theorem mem_hasKey (h : MRep m K) {k : Name} (hk : Generic k) : (m.keys.any fun r => r.1 = uriOf k) = (K.key k).isSome := by
  rw [Bool.eq_iff_iff, List.any_eq_true, Option.isSome_iff_exists]
  constructor
  · rintro ⟨r, h1, h2⟩
    obtain ⟨n, d, h3, rfl⟩ := (h.keys r).mp h1
    rw [decide_eq_true_iff] at h2
    exact ⟨d, (uri_iff (h.ok.keys n d h3).1 hk).mp h2 ▸ h3⟩
  · rintro ⟨d, h1⟩
    exact ⟨_, (h.keys _).mpr ⟨k, d, h1, rfl⟩, by simp⟩

theorem mem_hasCert (h : MRep m K) {n : Name} (hn : Generic n) : (m.certs.any fun r => r.1 = uriOf n) = (K.cert n).isSome := by
  rw [Bool.eq_iff_iff, List.any_eq_true, Option.isSome_iff_exists]
  constructor
  · rintro ⟨r, h1, h2⟩
    obtain ⟨x, k, e, h3, rfl⟩ := (h.certs r).mp h1
    rw [decide_eq_true_iff] at h2
    exact ⟨(k, e), (uri_iff (h.ok.certs x k e h3).1 hn).mp h2 ▸ h3⟩
  · rintro ⟨⟨k, e⟩, h1⟩
    exact ⟨_, (h.certs _).mpr ⟨n, k, e, h1, rfl⟩, by simp⟩

theorem mem_findId (h : MRep m K) {i : Name} (hi : Generic i) :
    (m.ids.find? fun r => r.1 = uriOf i) = if K.identity i then some (uriOf i, K.defaultKey i) else none := by
  cases hf : m.ids.find? fun r => r.1 = uriOf i with
  | some r =>
    have h1 := List.find?_some hf
    obtain ⟨n, h3, rfl⟩ := (h.ids r).mp (List.mem_of_find?_eq_some hf)
    rw [decide_eq_true_iff] at h1
    have := (uri_iff (h.ok.ids n h3) hi).mp h1
    subst this
    rw [if_pos h3]
  | none =>
    rw [if_neg]
    intro h1
    have := List.find?_eq_none.mp hf _ ((h.ids _).mpr ⟨i, h1, rfl⟩)
    simp at this

theorem mem_findKey (h : MRep m K) {k : Name} (hk : Generic k) :
    (m.keys.find? fun r => r.1 = uriOf k) = (K.key k).map fun d => (uriOf k, d, K.defaultCert k) := by
  cases hf : m.keys.find? fun r => r.1 = uriOf k with
  | some r =>
    have h1 := List.find?_some hf
    obtain ⟨n, d, h3, rfl⟩ := (h.keys r).mp (List.mem_of_find?_eq_some hf)
    rw [decide_eq_true_iff] at h1
    have := (uri_iff (h.ok.keys n d h3).1 hk).mp h1
    subst this
    rw [h3]
    rfl
  | none =>
    cases h1 : K.key k with
    | none => rfl
    | some d =>
      have := List.find?_eq_none.mp hf _ ((h.keys _).mpr ⟨k, d, h1, rfl⟩)
      simp at this

theorem mem_findCert (h : MRep m K) {n : Name} (hn : Generic n) :
    (m.certs.find? fun r => r.1 = uriOf n) = (K.cert n).map fun x => (uriOf n, x.2) := by
  cases hf : m.certs.find? fun r => r.1 = uriOf n with
  | some r =>
    have h1 := List.find?_some hf
    obtain ⟨x, k, e, h3, rfl⟩ := (h.certs r).mp (List.mem_of_find?_eq_some hf)
    rw [decide_eq_true_iff] at h1
    have := (uri_iff (h.ok.certs x k e h3).1 hn).mp h1
    subst this
    rw [h3]
    rfl
  | none =>
    cases h1 : K.cert n with
    | none => rfl
    | some x =>
      have := List.find?_eq_none.mp hf _ ((h.certs _).mpr ⟨n, x.1, x.2, h1, rfl⟩)
      simp at this

theorem mem_defaultKey (h : MRep m K) {i : Name} (hi : Generic i) :
    m.defaultKey i = match K.defaultKey i with | some k => .ok k | none => .error .security := by
  unfold Mem.defaultKey
  rw [mem_findId h hi]
  cases hd : K.defaultKey i with
  | some k =>
    obtain ⟨h1, d, h2⟩ := h.ok.defKey i k hd
    rw [if_pos (h1 ▸ h.keyId k d h2)]
  | none => split <;> simp_all

theorem mem_defaultCert (h : MRep m K) {k : Name} (hk : Generic k) : m.defaultCert k = nameOr (K.defaultCert k) := by
  unfold Mem.defaultCert
  rw [mem_findKey h hk]
  cases hd : K.defaultCert k with
  | some n =>
    obtain ⟨e, h1⟩ := h.ok.defCert k n hd
    obtain ⟨d, h2⟩ := h.certKey n k e h1
    rw [h2]
    rfl
  | none => cases K.key k <;> rfl

theorem mem_addIdentity (h : MRep m K) {i : Name} (hi : Generic i) :
    MRep (m.addIdentity (uriOf i)) { K with identity := fun n => n = i || K.identity n } := by
  unfold Mem.addIdentity
  rw [mem_hasId h hi]
  split
  · rename_i hh
    have : (fun n => decide (n = i) || K.identity n) = K.identity := by
      funext n
      by_cases e : n = i
      · rw [e, hh]; simp
      · simp [e]
    rw [this]
    exact h
  · rename_i hh
    have hd : K.defaultKey i = none := by
      cases hd : K.defaultKey i with
      | none => rfl
      | some k =>
        obtain ⟨h1, d, h2⟩ := h.ok.defKey i k hd
        exact absurd (h1 ▸ h.keyId k d h2) hh
    refine ⟨⟨fun n hn => ?_, h.ok.keys, h.ok.certs, fun n hn => ?_, h.ok.defKey, h.ok.defCert⟩, fun k d hk => ?_, h.certKey, fun r => ?_,
      h.default, h.keys, h.certs⟩
    · simp only [Bool.or_eq_true, decide_eq_true_eq] at hn
      rcases hn with rfl | hn
      · exact hi
      · exact h.ok.ids n hn
    · simp [h.ok.defId n hn]
    · simp [h.keyId k d hk]
    · dsimp only
      rw [List.mem_append, h.ids, List.mem_singleton]
      constructor
      · rintro (⟨n, h1, rfl⟩ | rfl)
        · exact ⟨n, by simp [h1], rfl⟩
        · exact ⟨i, by simp, by rw [hd]⟩
      · rintro ⟨n, h1, rfl⟩
        simp only [Bool.or_eq_true, decide_eq_true_eq] at h1
        by_cases e : n = i
        · subst e
          exact .inr (by rw [hd])
        · exact .inl ⟨n, h1.resolve_left e, rfl⟩

theorem mem_addKey (h : MRep m K) {k : Name} (hk : KeyName k) (der : Bytes) : MRep (m.addKey k der) (addKey K k der) := by
  unfold Mem.addKey addKey
  rw [if_neg (key_ne hk), mem_hasKey h hk.1]
  by_cases hh : (K.key k).isSome
  · rw [if_pos hh, if_pos (.inr hh)]
    exact h
  · rw [if_neg hh, if_neg (by simp [key_ne hk, hh])]
    dsimp only
    have h1 := mem_addIdentity h (generic_dropLast hk.1)
    have hnone : K.key k = none := by simpa using hh
    have hd : K.defaultCert k = none := by
      cases hd : K.defaultCert k with
      | none => rfl
      | some n =>
        obtain ⟨e, h2⟩ := h.ok.defCert k n hd
        obtain ⟨d, h3⟩ := h.certKey n k e h2
        rw [hnone] at h3
        cases h3
    refine ⟨⟨h1.ok.ids, fun n d hn => ?_, h1.ok.certs, h1.ok.defId, fun i n hn => ?_, h1.ok.defCert⟩, fun n d hn => ?_, fun n k' e hn => ?_,
      h1.ids, h1.default, fun r => ?_, h1.certs⟩
    · dsimp only at hn
      split at hn
      · rename_i e
        exact e ▸ hk
      · exact h.ok.keys n d hn
    · obtain ⟨h2, d, h3⟩ := h.ok.defKey i n hn
      refine ⟨h2, ?_⟩
      dsimp only
      split
      · exact ⟨der, rfl⟩
      · exact ⟨d, h3⟩
    · dsimp only at hn ⊢
      split at hn
      · rename_i e
        simp [e]
      · simp [h.keyId n d hn]
    · obtain ⟨d, h2⟩ := h.certKey n k' e hn
      dsimp only
      split
      · exact ⟨der, rfl⟩
      · exact ⟨d, h2⟩
    · have hkeys : (m.addIdentity (uriOf k.dropLast)).keys = m.keys := by
        unfold Mem.addIdentity
        split <;> rfl
      rw [hkeys]
      dsimp only
      rw [List.mem_append, h.keys, List.mem_singleton]
      constructor
      · rintro (⟨n, d, h2, rfl⟩ | rfl)
        · refine ⟨n, d, ?_, rfl⟩
          rw [if_neg (fun e => by rw [e, hnone] at h2; cases h2), h2]
        · exact ⟨k, der, by simp, by rw [hd]⟩
      · rintro ⟨n, d, h2, rfl⟩
        split at h2
        · rename_i e
          injection h2 with h2
          subst e h2
          exact .inr (by rw [hd])
        · exact .inl ⟨n, d, h2, rfl⟩

theorem mem_addCert (h : MRep m K) {n k : Name} (hn : Generic n) (hk : KeyName k) (e : Bytes) (hnone : K.cert n = none)
    (hkey : ∃ d, K.key k = some d) :
    MRep { m with certs := m.certs ++ [(uriOf n, e)] } { K with cert := fun x => if x = n then some (k, e) else K.cert x } := by
  refine ⟨⟨h.ok.ids, h.ok.keys, fun x k' e' hm => ?_, h.ok.defId, h.ok.defKey, fun k' x hm => ?_⟩, h.keyId, fun x k' e' hm => ?_, h.ids,
    h.default, h.keys, fun r => ?_⟩
  · dsimp only at hm
    split at hm
    · rename_i em
      injection hm with hm
      injection hm with h1 h2
      exact ⟨em ▸ hn, h1 ▸ hk⟩
    · exact h.ok.certs x k' e' hm
  · obtain ⟨e', h1⟩ := h.ok.defCert k' x hm
    refine ⟨e', ?_⟩
    dsimp only
    rw [if_neg (fun em => by rw [em, hnone] at h1; cases h1), h1]
  · dsimp only at hm
    split at hm
    · injection hm with hm
      injection hm with h1 h2
      exact h1 ▸ hkey
    · exact h.certKey x k' e' hm
  · dsimp only
    rw [List.mem_append, h.certs, List.mem_singleton]
    constructor
    · rintro (⟨x, k', e', h1, rfl⟩ | rfl)
      · refine ⟨x, k', e', ?_, rfl⟩
        rw [if_neg (fun em => by rw [em, hnone] at h1; cases h1), h1]
      · exact ⟨n, k, e, by simp, rfl⟩
    · rintro ⟨x, k', e', h1, rfl⟩
      split at h1
      · rename_i em
        injection h1 with h1
        injection h1 with h1 h2
        subst em h1 h2
        exact .inr rfl
      · exact .inl ⟨x, k', e', h1, rfl⟩

theorem mem_setId (h : MRep m K) {i : Name} (hi : Generic i) :
    MRep (m.call (.setDefaultIdentity i)).1 (after K (.setDefaultIdentity i)) := by
  have hok : Ok (after K (.setDefaultIdentity i)) := by
    refine ⟨h.ok.ids, h.ok.keys, h.ok.certs, fun n hn => ?_, h.ok.defKey, h.ok.defCert⟩
    unfold after at hn ⊢
    dsimp only at hn ⊢
    split at hn
    · rename_i h1
      injection hn with hn
      exact hn ▸ h1
    · cases hn
  have hid := mem_hasId h hi
  unfold Mem.call after at *
  dsimp only at hid hok ⊢
  rw [hid]
  split
  · rename_i h1
    rw [if_pos h1] at hok
    exact ⟨hok, h.keyId, h.certKey, h.ids, rfl, h.keys, h.certs⟩
  · rename_i h1
    rw [if_neg h1] at hok
    exact ⟨hok, h.keyId, h.certKey, h.ids, rfl, h.keys, h.certs⟩

theorem mem_setKey (h : MRep m K) {k : Name} (hk : KeyName k) (check : Option Name) (hs : mismatch k check ∨ (K.key k).isSome = true) :
    MRep (m.call (.setDefaultKeyNameForIdentity k check)).1 (after K (.setDefaultKeyNameForIdentity k check)) := by
  unfold Mem.call after
  dsimp only
  by_cases hm : mismatch k check
  · rw [if_pos (check_iff.mpr hm), if_pos hm]
    exact h
  rw [if_neg (fun e => hm (check_iff.mp e)), if_neg hm, if_pos (hs.resolve_left hm)]
  have hsome := Option.isSome_iff_exists.mp (hs.resolve_left hm)
  refine ⟨⟨h.ok.ids, h.ok.keys, h.ok.certs, h.ok.defId, fun i n hn => ?_, h.ok.defCert⟩, h.keyId, h.certKey, fun r => ?_, h.default, h.keys,
    h.certs⟩
  · dsimp only at hn
    split at hn
    · rename_i h1
      injection hn with hn
      subst hn
      exact ⟨h1.symm, hsome⟩
    · exact h.ok.defKey i n hn
  · have key : ∀ n, K.identity n = true →
        (if uriOf n = uriOf k.dropLast then (uriOf n, some k) else (uriOf n, K.defaultKey n)) =
          (uriOf n, if n = k.dropLast then some k else K.defaultKey n) := by
      intro n hn
      by_cases e : n = k.dropLast
      · rw [if_pos (by rw [e]), if_pos e]
      · rw [if_neg (fun e' => e ((uri_iff (h.ok.ids n hn) (generic_dropLast hk.1)).mp e')), if_neg e]
    dsimp only
    simp only [List.mem_map]
    constructor
    · rintro ⟨r0, h1, rfl⟩
      obtain ⟨n, h2, rfl⟩ := (h.ids r0).mp h1
      exact ⟨n, h2, key n h2⟩
    · rintro ⟨n, h2, rfl⟩
      exact ⟨_, (h.ids _).mpr ⟨n, h2, rfl⟩, key n h2⟩

theorem mem_setCert (h : MRep m K) {k n : Name} (hk : KeyName k) (hs : (K.cert n).map Prod.fst = some k) :
    MRep (m.call (.setDefaultCertificateNameForKey k n)).1 (after K (.setDefaultCertificateNameForKey k n)) := by
  unfold Mem.call after
  dsimp only
  rw [if_pos hs]
  refine ⟨⟨h.ok.ids, h.ok.keys, h.ok.certs, h.ok.defId, h.ok.defKey, fun k' x hm => ?_⟩, h.keyId, h.certKey, h.ids, h.default, fun r => ?_,
    h.certs⟩
  · dsimp only at hm
    split at hm
    · rename_i h1
      injection hm with hm
      subst hm
      obtain ⟨y, h3, h4⟩ := Option.map_eq_some_iff.mp hs
      exact ⟨y.2, by dsimp only; rw [h3, h1, ← h4]⟩
    · exact h.ok.defCert k' x hm
  · have key : ∀ x d, K.key x = some d →
        (if uriOf x = uriOf k then (uriOf x, d, some n) else (uriOf x, d, K.defaultCert x)) =
          (uriOf x, d, if x = k then some n else K.defaultCert x) := by
      intro x d hx
      by_cases e : x = k
      · rw [if_pos (by rw [e]), if_pos e]
      · rw [if_neg (fun e' => e ((uri_iff (h.ok.keys x d hx).1 hk.1).mp e')), if_neg e]
    dsimp only
    simp only [List.mem_map]
    constructor
    · rintro ⟨r0, h1, rfl⟩
      obtain ⟨x, d, h2, rfl⟩ := (h.keys r0).mp h1
      exact ⟨x, d, h2, key x d h2⟩
    · rintro ⟨x, d, h2, rfl⟩
      exact ⟨_, (h.keys _).mpr ⟨x, d, h2, rfl⟩, key x d h2⟩

theorem mem_call_ok (h : MRep m K) {o : Op} {os : List Op} (ho : Fine o) (hs : Simple K (o :: os)) :
    (m.call o).2 = answer K o ∧ MRep (m.call o).1 (after K o) := by
  unfold Simple at hs
  replace hs := hs.1
  cases o with
  | doesIdentityExist i => exact ⟨by show Obs.bool _ = Obs.bool _; rw [mem_hasId h ho], h⟩
  | addIdentity i => exact ⟨rfl, mem_addIdentity h ho⟩
  | doesKeyExist k => exact ⟨by show Obs.bool _ = Obs.bool _; rw [mem_hasKey h ho.1], h⟩
  | addKey k der => exact ⟨rfl, mem_addKey h ho der⟩
  | getKey k =>
    unfold Mem.call answer
    dsimp only
    rw [if_neg (key_ne ho), mem_findKey h ho.1]
    cases K.key k <;> exact ⟨rfl, h⟩
  | deletePublicKeyInfo k => exact hs.elim
  | doesCertificateExist n => exact ⟨by show Obs.bool _ = Obs.bool _; rw [mem_hasCert h ho], h⟩
  | addCertificate c =>
    have h1 := mem_addKey h ho.2 c.keyDer
    unfold Mem.call after
    dsimp only
    rw [mem_hasCert h1 ho.1]
    split
    · exact ⟨rfl, h1⟩
    · rename_i hn
      refine ⟨rfl, mem_addCert h1 ho.1 ho.2 c.encoding (by simpa using hn) ?_⟩
      unfold addKey
      split
      · rename_i h2
        exact Option.isSome_iff_exists.mp (h2.resolve_left (key_ne ho.2))
      · exact ⟨c.keyDer, by simp⟩
  | getCertificate n =>
    unfold Mem.call answer
    dsimp only
    rw [mem_findCert h ho]
    cases K.cert n <;> exact ⟨rfl, h⟩
  | deleteCertificateInfo n => exact hs.elim
  | deleteIdentityInfo i => exact hs.elim
  | getDefaultIdentity =>
    unfold Mem.call answer
    dsimp only
    rw [h.default]
    cases hd : K.defaultIdentity with
    | none => exact ⟨rfl, h⟩
    | some n =>
      rw [Option.map_some, Option.getD_some, if_neg uri_ne]
      exact ⟨parse_uri (h.ok.ids n (h.ok.defId n hd)), h⟩
  | getDefaultKeyNameForIdentity i =>
    unfold Mem.call answer
    dsimp only
    rw [mem_defaultKey h ho]
    cases K.defaultKey i <;> exact ⟨rfl, h⟩
  | getDefaultCertificateNameForKey k => exact ⟨mem_defaultCert h ho.1, h⟩
  | getDefaultCertificateNameForIdentity i =>
    unfold Mem.call answer
    dsimp only
    rw [mem_defaultKey h ho]
    cases hd : K.defaultKey i with
    | none => exact ⟨rfl, h⟩
    | some k =>
      obtain ⟨_, d, h1⟩ := h.ok.defKey i k hd
      exact ⟨mem_defaultCert h (h.ok.keys k d h1).1, h⟩
  | setDefaultIdentity i =>
    refine ⟨?_, mem_setId h ho⟩
    unfold Mem.call
    dsimp only
    split <;> rfl
  | setDefaultKeyNameForIdentity k check =>
    refine ⟨?_, mem_setKey h ho check hs⟩
    unfold Mem.call answer
    dsimp only
    by_cases hm : mismatch k check
    · rw [if_pos (check_iff.mpr hm), if_pos hm]
    · rw [if_neg (fun e => hm (check_iff.mp e)), if_neg hm]
  | setDefaultCertificateNameForKey k n => exact ⟨rfl, mem_setCert h ho.1 hs⟩

theorem empty_mrep : MRep {} {} := by
  refine ⟨empty_ok, (fun _ _ h => by cases h), (fun _ _ _ h => by cases h), fun r => ⟨(fun h => by cases h), ?_⟩, rfl,
    fun r => ⟨(fun h => by cases h), ?_⟩, fun r => ⟨(fun h => by cases h), ?_⟩⟩
  · rintro ⟨_, h, _⟩
    cases h
  · rintro ⟨_, _, h, _⟩
    cases h
  · rintro ⟨_, _, _, h, _⟩
    cases h

theorem mem_run_ok (ops : List Op) : ∀ {m : Mem} {K : Known}, MRep m K → (∀ o ∈ ops, Fine o) → Simple K ops →
    (m.run ops).1 = answers K ops := by
  induction ops with
  | nil => exact fun _ _ _ => rfl
  | cons o os ih =>
    intro m K h ho hs
    obtain ⟨h1, h2⟩ := mem_call_ok h (ho o (by simp)) hs
    unfold Simple at hs
    unfold Mem.run answers
    dsimp only
    rw [h1, ih h2 (fun o ho' => ho o (by simp [ho'])) hs.2]

end PyNDN.IdentityStorage
