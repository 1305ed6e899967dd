import Verif.Spec.IdentityStorage
import Verif.Props.NameUri
import Verif.Lemmas.Name
/-
The storages of identities, keys and certificates give what is specified.
-/
namespace PyNDN.IdentityStorage
open PyNDN PyNDN.Spec PyNDN.Spec.IdentityStorage

theorem generic_canonical {n : Name} (h : Generic n) : CanonicalName n := by
  intro c hc
  unfold Canonical
  rw [h c hc]
  trivial

theorem generic_plain {n : Name} (h : Generic n) : ∀ c ∈ n.dropLast, c.type ≠ .implicit ∧ c.type ≠ .params := by
  intro c hc
  rw [h c (List.dropLast_subset _ hc)]
  simp

theorem generic_dropLast {n : Name} (h : Generic n) : Generic n.dropLast := fun c hc => h c (List.dropLast_subset _ hc)

theorem uri_iff {a b : Name} (ha : Generic a) (hb : Generic b) : uriOf a = uriOf b ↔ a = b :=
  ⟨C13_uri_injective_partial a b false (generic_canonical ha) (generic_canonical hb) (generic_plain ha) (generic_plain hb),
    fun h => by rw [h]⟩

theorem parse_uri {n : Name} (h : Generic n) : parse (uriOf n) = .name n := by
  unfold parse uriOf
  rw [C13_uri_roundtrip_partial n false (generic_canonical h) (generic_plain h)]

theorem uri_ne {n : Name} : uriOf n ≠ [] := by
  unfold uriOf Name.toUri
  split
  · simp
  · rename_i h
    cases n with
    | nil => exact absurd rfl h
    | cons c n => simp

def idOf (k : Name) : Str := uriOf k.dropLast
def kidOf (k : Name) : Str := (k.getLast?.map Component.toEscapedString).getD []

theorem columns_key {k : Name} (h : KeyName k) : columns k = .ok (idOf k, kidOf k) := by
  obtain ⟨_, c, h1, _⟩ := h
  unfold columns idOf kidOf
  rw [h1]
  rfl

theorem key_eq {k : Name} {c : Component} (h : k.getLast? = some c) : k = k.dropLast ++ [c] := by
  obtain ⟨l, rfl⟩ := List.getLast?_eq_some_iff.mp h
  rw [List.dropLast_concat]

theorem key_ne {k : Name} (h : KeyName k) : k ≠ [] := by
  obtain ⟨_, c, h1, _⟩ := h
  rintro rfl
  cases h1

theorem append_key {k : Name} (h : KeyName k) : appendText k.dropLast (kidOf k) = k := by
  obtain ⟨hg, c, h1, h2⟩ := h
  have h3 := key_eq h1
  have h4 : c.type = .generic := hg c (by rw [h3]; simp)
  unfold appendText kidOf
  rw [h1]
  dsimp only [Option.map_some, Option.getD_some]
  rw [← h2, ← h4]
  exact h3.symm

theorem cols_iff {a b : Name} (ha : KeyName a) (hb : KeyName b) : (idOf a = idOf b ∧ kidOf a = kidOf b) ↔ a = b := by
  refine ⟨fun ⟨h1, h2⟩ => ?_, fun h => by rw [h]; exact ⟨rfl, rfl⟩⟩
  have h3 := (uri_iff (generic_dropLast ha.1) (generic_dropLast hb.1)).mp h1
  rw [← append_key ha, ← append_key hb, h2, h3]

theorem id_iff {k i : Name} (hk : KeyName k) (hi : Generic i) : idOf k = uriOf i ↔ k.dropLast = i :=
  uri_iff (generic_dropLast hk.1) hi

/-- What is known is consistent. -/
structure Ok (K : Known) : Prop where
  ids : ∀ n, K.identity n = true → Generic n
  keys : ∀ k d, K.key k = some d → KeyName k
  certs : ∀ n k e, K.cert n = some (k, e) → Generic n ∧ KeyName k
  defId : ∀ n, K.defaultIdentity = some n → K.identity n = true
  defKey : ∀ i k, K.defaultKey i = some k → k.dropLast = i ∧ ∃ d, K.key k = some d
  defCert : ∀ k n, K.defaultCert k = some n → ∃ e, K.cert n = some (k, e)

open Classical in
/-- The database has what is known. -/
structure Rep (db : DB) (K : Known) : Prop where
  ok : Ok K
  ids : ∀ r, r ∈ db.ids ↔ ∃ n, K.identity n = true ∧ r = ⟨uriOf n, decide (K.defaultIdentity = some n)⟩
  keys : ∀ r, r ∈ db.keys ↔ ∃ k d, K.key k = some d ∧ r = ⟨idOf k, kidOf k, d, decide (K.defaultKey k.dropLast = some k)⟩
  certs : ∀ r, r ∈ db.certs ↔ ∃ n k e, K.cert n = some (k, e) ∧ r = ⟨uriOf n, idOf k, kidOf k, e, decide (K.defaultCert k = some n)⟩

variable {db : DB} {K : Known}

theorem hasIdentity_eq (h : Rep db K) {i : Name} (hi : Generic i) : db.hasIdentity (uriOf i) = K.identity i := by
  rw [Bool.eq_iff_iff]
  unfold DB.hasIdentity
  rw [List.any_eq_true]
  constructor
  · rintro ⟨r, h1, h2⟩
    obtain ⟨n, h3, rfl⟩ := (h.ids r).mp h1
    rw [decide_eq_true_iff] at h2
    exact (uri_iff (h.ok.ids n h3) hi).mp h2 ▸ h3
  · intro h1
    exact ⟨_, (h.ids _).mpr ⟨i, h1, rfl⟩, by simp⟩

theorem hasKey_eq (h : Rep db K) {k : Name} (hk : KeyName k) : db.hasKey (idOf k) (kidOf k) = (K.key k).isSome := by
  rw [Bool.eq_iff_iff]
  unfold DB.hasKey
  rw [List.any_eq_true, Option.isSome_iff_exists]
  constructor
  · rintro ⟨r, h1, h2⟩
    obtain ⟨n, d, h3, rfl⟩ := (h.keys r).mp h1
    rw [decide_eq_true_iff] at h2
    exact ⟨d, (cols_iff (h.ok.keys n d h3) hk).mp h2 ▸ h3⟩
  · rintro ⟨d, h1⟩
    exact ⟨_, (h.keys _).mpr ⟨k, d, h1, rfl⟩, by simp⟩

theorem hasCert_eq (h : Rep db K) {n : Name} (hn : Generic n) : db.hasCert (uriOf n) = (K.cert n).isSome := by
  rw [Bool.eq_iff_iff]
  unfold DB.hasCert
  rw [List.any_eq_true, Option.isSome_iff_exists]
  constructor
  · rintro ⟨r, h1, h2⟩
    obtain ⟨m, k, e, h3, rfl⟩ := (h.certs r).mp h1
    rw [decide_eq_true_iff] at h2
    exact ⟨(k, e), (uri_iff (h.ok.certs m k e h3).1 hn).mp h2 ▸ h3⟩
  · rintro ⟨⟨k, e⟩, h1⟩
    exact ⟨_, (h.certs _).mpr ⟨n, k, e, h1, rfl⟩, by simp⟩

theorem getKey_eq (h : Rep db K) {k : Name} (hk : KeyName k) :
    (db.keys.find? fun r => r.identity = idOf k ∧ r.keyId = kidOf k).map KeyRow.der = K.key k := by
  cases hf : db.keys.find? fun r => r.identity = idOf k ∧ r.keyId = kidOf k with
  | some r =>
    have h1 := List.find?_some hf
    obtain ⟨n, d, h3, rfl⟩ := (h.keys r).mp (List.mem_of_find?_eq_some hf)
    rw [decide_eq_true_iff] at h1
    rw [← (cols_iff (h.ok.keys n d h3) hk).mp h1, h3]
    rfl
  | none =>
    cases hk' : K.key k with
    | none => rfl
    | some d =>
      have := List.find?_eq_none.mp hf _ ((h.keys _).mpr ⟨k, d, hk', rfl⟩)
      simp at this

theorem getCert_eq (h : Rep db K) {n : Name} (hn : Generic n) :
    (db.certs.find? fun r => r.uri = uriOf n).map CertRow.encoding = (K.cert n).map Prod.snd := by
  cases hf : db.certs.find? fun r => r.uri = uriOf n with
  | some r =>
    have h1 := List.find?_some hf
    obtain ⟨m, k, e, h3, rfl⟩ := (h.certs r).mp (List.mem_of_find?_eq_some hf)
    rw [decide_eq_true_iff] at h1
    rw [← (uri_iff (h.ok.certs m k e h3).1 hn).mp h1, h3]
    rfl
  | none =>
    cases hk' : K.cert n with
    | none => rfl
    | some x =>
      have := List.find?_eq_none.mp hf _ ((h.certs _).mpr ⟨n, x.1, x.2, hk', rfl⟩)
      simp at this

theorem defaultId_eq (h : Rep db K) :
    (db.ids.find? fun r => r.isDefault).map IdRow.uri = K.defaultIdentity.map uriOf := by
  cases hf : db.ids.find? fun r => r.isDefault with
  | some r =>
    have h1 := List.find?_some hf
    obtain ⟨n, h3, rfl⟩ := (h.ids r).mp (List.mem_of_find?_eq_some hf)
    rw [decide_eq_true_iff] at h1
    rw [h1]
    rfl
  | none =>
    cases hk' : K.defaultIdentity with
    | none => rfl
    | some n =>
      have := List.find?_eq_none.mp hf _ ((h.ids _).mpr ⟨n, h.ok.defId n hk', rfl⟩)
      simp [hk'] at this

theorem defaultKey_eq (h : Rep db K) {i : Name} (hi : Generic i) :
    db.defaultKey i = match K.defaultKey i with | some k => .ok k | none => .error .security := by
  unfold DB.defaultKey
  cases hf : db.keys.find? fun r => r.identity = uriOf i ∧ r.isDefault with
  | some r =>
    have h1 := List.find?_some hf
    obtain ⟨k, d, h3, rfl⟩ := (h.keys r).mp (List.mem_of_find?_eq_some hf)
    simp only [decide_eq_true_eq] at h1
    obtain ⟨h1, h2⟩ := h1
    have hk := h.ok.keys k d h3
    have h4 := (id_iff hk hi).mp h1
    rw [h4] at h2
    rw [h2]
    dsimp only
    rw [← h4, append_key hk]
  | none =>
    cases hk' : K.defaultKey i with
    | none => rfl
    | some k =>
      obtain ⟨h1, d, h2⟩ := h.ok.defKey i k hk'
      have := List.find?_eq_none.mp hf _ ((h.keys _).mpr ⟨k, d, h2, rfl⟩)
      simp [idOf, h1, hk'] at this

theorem defaultCert_eq (h : Rep db K) {k : Name} (hk : KeyName k) : db.defaultCert k = nameOr (K.defaultCert k) := by
  unfold DB.defaultCert
  rw [columns_key hk]
  dsimp only
  cases hf : db.certs.find? fun r => r.identity = idOf k ∧ r.keyId = kidOf k ∧ r.isDefault with
  | some r =>
    have h1 := List.find?_some hf
    obtain ⟨n, m, e, h3, rfl⟩ := (h.certs r).mp (List.mem_of_find?_eq_some hf)
    simp only [decide_eq_true_eq] at h1
    obtain ⟨h4, h5⟩ := h.ok.certs n m e h3
    have h6 := (cols_iff h5 hk).mp ⟨h1.1, h1.2.1⟩
    subst h6
    rw [h1.2.2]
    exact parse_uri h4
  | none =>
    cases hk' : K.defaultCert k with
    | none => rfl
    | some n =>
      obtain ⟨e, h2⟩ := h.ok.defCert k n hk'
      have := List.find?_eq_none.mp hf _ ((h.certs _).mpr ⟨n, k, e, h2, rfl⟩)
      simp [hk'] at this

/-! ### Changes -/

open Classical in
theorem addIdentity_rep (h : Rep db K) {i : Name} (hi : Generic i) :
    Rep (db.addIdentity (uriOf i)) { K with identity := fun n => n = i || K.identity n } := by
  have hok : Ok { K with identity := fun n => n = i || K.identity n } := by
    refine ⟨fun n hn => ?_, h.ok.keys, h.ok.certs, fun n hn => ?_, h.ok.defKey, h.ok.defCert⟩
    · simp only [Bool.or_eq_true, decide_eq_true_eq] at hn
      rcases hn with rfl | hn
      · exact hi
      · exact h.ok.ids n hn
    · simp [h.ok.defId n hn]
  unfold DB.addIdentity
  rw [hasIdentity_eq h hi]
  split
  · rename_i hh
    have : (fun n => decide (n = i) || K.identity n) = K.identity := by
      funext n
      by_cases e : n = i
      · rw [e, hh]; simp
      · simp [e]
    rw [this]
    exact h
  · rename_i hh
    refine ⟨hok, fun r => ?_, h.keys, h.certs⟩
    dsimp only
    rw [List.mem_append, h.ids, List.mem_singleton]
    have hd : decide (K.defaultIdentity = some i) = false := by
      rw [decide_eq_false_iff_not]
      exact fun e => hh (h.ok.defId i e)
    constructor
    · rintro (⟨n, h1, rfl⟩ | rfl)
      · exact ⟨n, by simp [h1], rfl⟩
      · exact ⟨i, by simp, by rw [hd]⟩
    · rintro ⟨n, h1, rfl⟩
      simp only [Bool.or_eq_true, decide_eq_true_eq] at h1
      by_cases e : n = i
      · subst e
        exact .inr (by rw [hd])
      · exact .inl ⟨n, h1.resolve_left e, rfl⟩

open Classical in
theorem addKey_rep (h : Rep db K) {k : Name} (hk : KeyName k) (der : Bytes) : Rep (db.addKey (idOf k) (kidOf k) der) (addKey K k der) := by
  unfold DB.addKey addKey
  rw [hasKey_eq h hk]
  by_cases hh : (K.key k).isSome
  · rw [if_pos hh, if_pos (.inr hh)]
    exact h
  · rw [if_neg hh, if_neg (by simp [key_ne hk, hh])]
    dsimp only
    have h1 := addIdentity_rep h (generic_dropLast hk.1)
    have hnone : K.key k = none := by simpa using hh
    have hd : decide (K.defaultKey k.dropLast = some k) = false := by
      rw [decide_eq_false_iff_not]
      intro e
      obtain ⟨_, d, h2⟩ := h.ok.defKey _ _ e
      rw [hnone] at h2
      cases h2
    refine ⟨⟨h1.ok.ids, fun n d hn => ?_, h1.ok.certs, h1.ok.defId, fun i n hn => ?_, h1.ok.defCert⟩, h1.ids, fun r => ?_, h1.certs⟩
    · dsimp only at hn
      split at hn
      · rename_i e
        exact e ▸ hk
      · exact h.ok.keys n d hn
    · obtain ⟨h2, d, h3⟩ := h.ok.defKey i n hn
      refine ⟨h2, ?_⟩
      dsimp only
      split
      · exact ⟨der, rfl⟩
      · exact ⟨d, h3⟩
    · have hkeys : (db.addIdentity (idOf k)).keys = db.keys := by
        unfold DB.addIdentity
        split <;> rfl
      rw [hkeys]
      dsimp only
      rw [List.mem_append, h.keys, List.mem_singleton]
      constructor
      · rintro (⟨n, d, h2, rfl⟩ | rfl)
        · refine ⟨n, d, ?_, rfl⟩
          rw [if_neg (fun e => by rw [e, hnone] at h2; cases h2), h2]
        · exact ⟨k, der, by simp, by rw [hd]⟩
      · rintro ⟨n, d, h2, rfl⟩
        split at h2
        · rename_i e
          injection h2 with h2
          subst e h2
          exact .inr (by rw [hd])
        · exact .inl ⟨n, d, h2, rfl⟩

open Classical in
theorem addCert_rep (h : Rep db K) {n k : Name} (hn : Generic n) (hk : KeyName k) (e : Bytes) (hnone : K.cert n = none) :
    Rep { db with certs := db.certs ++ [{ uri := uriOf n, identity := idOf k, keyId := kidOf k, encoding := e }] }
      { K with cert := fun m => if m = n then some (k, e) else K.cert m } := by
  refine ⟨⟨h.ok.ids, h.ok.keys, fun m k' e' hm => ?_, h.ok.defId, h.ok.defKey, fun k' m hm => ?_⟩, h.ids, h.keys, fun r => ?_⟩
  · dsimp only at hm
    split at hm
    · rename_i em
      injection hm with hm
      injection hm with h1 h2
      exact ⟨em ▸ hn, h1 ▸ hk⟩
    · exact h.ok.certs m k' e' hm
  · obtain ⟨e', h1⟩ := h.ok.defCert k' m hm
    refine ⟨e', ?_⟩
    dsimp only
    rw [if_neg (fun em => by rw [em, hnone] at h1; cases h1), h1]
  · have hd : decide (K.defaultCert k = some n) = false := by
      rw [decide_eq_false_iff_not]
      intro he
      obtain ⟨e', h1⟩ := h.ok.defCert k n he
      rw [hnone] at h1
      cases h1
    dsimp only
    rw [List.mem_append, h.certs, List.mem_singleton]
    constructor
    · rintro (⟨m, k', e', h1, rfl⟩ | rfl)
      · refine ⟨m, k', e', ?_, rfl⟩
        rw [if_neg (fun em => by rw [em, hnone] at h1; cases h1), h1]
      · exact ⟨n, k, e, by simp, by rw [hd]⟩
    · rintro ⟨m, k', e', h1, rfl⟩
      split at h1
      · rename_i em
        injection h1 with h1
        injection h1 with h1 h2
        subst em h1 h2
        exact .inr (by rw [hd])
      · exact .inl ⟨m, k', e', h1, rfl⟩

open Classical in
theorem deleteKey_rep (h : Rep db K) {k : Name} (hk : KeyName k) :
    Rep (db.call (.deletePublicKeyInfo k)).1 (after K (.deletePublicKeyInfo k)) := by
  unfold DB.call after
  dsimp only
  rw [columns_key hk]
  dsimp only
  refine ⟨⟨h.ok.ids, fun n d hn => ?_, fun n k' e hn => ?_, h.ok.defId, fun i n hn => ?_, fun k' n hn => ?_⟩, h.ids, fun r => ?_,
    fun r => ?_⟩
  · dsimp only at hn
    split at hn
    · cases hn
    · exact h.ok.keys n d hn
  · exact h.ok.certs n k' e (Option.filter_eq_some_iff.mp hn).1
  · obtain ⟨h1, h2⟩ := Option.filter_eq_some_iff.mp hn
    obtain ⟨h3, d, h4⟩ := h.ok.defKey i n h1
    refine ⟨h3, d, ?_⟩
    dsimp only
    rw [if_neg (by simpa using h2), h4]
  · dsimp only at hn
    split at hn
    · cases hn
    · rename_i hne
      obtain ⟨e, h1⟩ := h.ok.defCert k' n hn
      exact ⟨e, Option.filter_eq_some_iff.mpr ⟨h1, by simpa using hne⟩⟩
  · dsimp only
    rw [List.mem_filter, h.keys]
    constructor
    · rintro ⟨⟨n, d, h1, rfl⟩, h2⟩
      have hne : n ≠ k := by
        rintro rfl
        simp at h2
      refine ⟨n, d, by rw [if_neg hne, h1], ?_⟩
      congr 1
      rw [decide_eq_decide, Option.filter_eq_some_iff]
      simp [hne]
    · rintro ⟨n, d, h1, rfl⟩
      split at h1
      · cases h1
      · rename_i hne
        refine ⟨⟨n, d, h1, ?_⟩, ?_⟩
        · congr 1
          rw [decide_eq_decide, Option.filter_eq_some_iff]
          simp [hne]
        · rw [decide_eq_true_iff]
          exact fun e => hne ((cols_iff (h.ok.keys n d h1) hk).mp e)
  · dsimp only
    rw [List.mem_filter, h.certs]
    constructor
    · rintro ⟨⟨n, k', e, h1, rfl⟩, h2⟩
      have hne : k' ≠ k := by
        rintro rfl
        simp at h2
      refine ⟨n, k', e, Option.filter_eq_some_iff.mpr ⟨h1, by simpa using hne⟩, ?_⟩
      congr 1
      rw [decide_eq_decide, if_neg hne]
    · rintro ⟨n, k', e, h1, rfl⟩
      obtain ⟨h1, h2⟩ := Option.filter_eq_some_iff.mp h1
      have hne : k' ≠ k := by simpa using h2
      refine ⟨⟨n, k', e, h1, ?_⟩, ?_⟩
      · congr 1
        rw [decide_eq_decide, if_neg hne]
      · rw [decide_eq_true_iff]
        exact fun e' => hne ((cols_iff (h.ok.certs n k' e h1).2 hk).mp e')

open Classical in
theorem deleteCert_rep (h : Rep db K) {n : Name} (hn : Generic n) :
    Rep (db.call (.deleteCertificateInfo n)).1 (after K (.deleteCertificateInfo n)) := by
  unfold DB.call after
  dsimp only
  split
  · exact h
  · refine ⟨⟨h.ok.ids, h.ok.keys, fun m k e hm => ?_, h.ok.defId, h.ok.defKey, fun k m hm => ?_⟩, h.ids, h.keys, fun r => ?_⟩
    · dsimp only at hm
      split at hm
      · cases hm
      · exact h.ok.certs m k e hm
    · obtain ⟨h1, h2⟩ := Option.filter_eq_some_iff.mp hm
      obtain ⟨e, h3⟩ := h.ok.defCert k m h1
      refine ⟨e, ?_⟩
      dsimp only
      rw [if_neg (by simpa using h2), h3]
    · dsimp only
      rw [List.mem_filter, h.certs]
      constructor
      · rintro ⟨⟨m, k, e, h1, rfl⟩, h2⟩
        have hne : m ≠ n := by
          rintro rfl
          simp at h2
        refine ⟨m, k, e, by rw [if_neg hne, h1], ?_⟩
        congr 1
        rw [decide_eq_decide, Option.filter_eq_some_iff]
        simp [hne]
      · rintro ⟨m, k, e, h1, rfl⟩
        split at h1
        · cases h1
        · rename_i hne
          refine ⟨⟨m, k, e, h1, ?_⟩, ?_⟩
          · congr 1
            rw [decide_eq_decide, Option.filter_eq_some_iff]
            simp [hne]
          · rw [decide_eq_true_iff]
            exact fun e' => hne ((uri_iff (h.ok.certs m k e h1).1 hn).mp e')

open Classical in
theorem deleteId_rep (h : Rep db K) {i : Name} (hi : Generic i) :
    Rep (db.call (.deleteIdentityInfo i)).1 (after K (.deleteIdentityInfo i)) := by
  unfold DB.call after
  dsimp only
  refine ⟨⟨fun n hn => ?_, fun n d hn => ?_, fun n k' e hn => ?_, fun n hn => ?_, fun j n hn => ?_, fun k' n hn => ?_⟩, fun r => ?_,
    fun r => ?_, fun r => ?_⟩
  · simp only [Bool.and_eq_true] at hn
    exact h.ok.ids n hn.2
  · dsimp only at hn
    split at hn
    · cases hn
    · exact h.ok.keys n d hn
  · exact h.ok.certs n k' e (Option.filter_eq_some_iff.mp hn).1
  · obtain ⟨h1, h2⟩ := Option.filter_eq_some_iff.mp hn
    simp only [Bool.and_eq_true]
    exact ⟨h2, h.ok.defId n h1⟩
  · dsimp only at hn
    split at hn
    · cases hn
    · rename_i hne
      obtain ⟨h3, d, h4⟩ := h.ok.defKey j n hn
      refine ⟨h3, d, ?_⟩
      dsimp only
      rw [if_neg (fun e => hne (h3 ▸ e.2)), h4]
  · dsimp only at hn
    split at hn
    · cases hn
    · rename_i hne
      obtain ⟨e, h1⟩ := h.ok.defCert k' n hn
      exact ⟨e, Option.filter_eq_some_iff.mpr ⟨h1, by simpa using hne⟩⟩
  · dsimp only
    rw [List.mem_filter, h.ids]
    constructor
    · rintro ⟨⟨n, h1, rfl⟩, h2⟩
      have hne : n ≠ i := by
        rintro rfl
        simp at h2
      refine ⟨n, by simp [hne, h1], ?_⟩
      congr 1
      rw [decide_eq_decide, Option.filter_eq_some_iff]
      simp [hne]
    · rintro ⟨n, h1, rfl⟩
      simp only [Bool.and_eq_true, decide_eq_true_eq] at h1
      obtain ⟨hne, h1⟩ := h1
      refine ⟨⟨n, h1, ?_⟩, ?_⟩
      · congr 1
        rw [decide_eq_decide, Option.filter_eq_some_iff]
        simp [hne]
      · rw [decide_eq_true_iff]
        exact fun e => hne ((uri_iff (h.ok.ids n h1) hi).mp e)
  · dsimp only
    rw [List.mem_filter, h.keys]
    constructor
    · rintro ⟨⟨n, d, h1, rfl⟩, h2⟩
      have hne : n.dropLast ≠ i := by
        rintro rfl
        simp [idOf] at h2
      refine ⟨n, d, by rw [if_neg (fun e => hne e.2), h1], ?_⟩
      congr 1
      rw [decide_eq_decide, if_neg hne]
    · rintro ⟨n, d, h1, rfl⟩
      split at h1
      · cases h1
      · rename_i hne
        have hk := h.ok.keys n d h1
        have hne : n.dropLast ≠ i := fun e => hne ⟨key_ne hk, e⟩
        refine ⟨⟨n, d, h1, ?_⟩, ?_⟩
        · congr 1
          rw [decide_eq_decide, if_neg hne]
        · rw [decide_eq_true_iff]
          exact fun e => hne ((id_iff hk hi).mp e)
  · dsimp only
    rw [List.mem_filter, h.certs]
    constructor
    · rintro ⟨⟨n, k', e, h1, rfl⟩, h2⟩
      have hne : k'.dropLast ≠ i := by
        rintro rfl
        simp [idOf] at h2
      refine ⟨n, k', e, Option.filter_eq_some_iff.mpr ⟨h1, by simpa using hne⟩, ?_⟩
      congr 1
      rw [decide_eq_decide, if_neg hne]
    · rintro ⟨n, k', e, h1, rfl⟩
      obtain ⟨h1, h2⟩ := Option.filter_eq_some_iff.mp h1
      have hne : k'.dropLast ≠ i := by simpa using h2
      refine ⟨⟨n, k', e, h1, ?_⟩, ?_⟩
      · congr 1
        rw [decide_eq_decide, if_neg hne]
      · rw [decide_eq_true_iff]
        exact fun e' => hne ((id_iff (h.ok.certs n k' e h1).2 hi).mp e')

open Classical in
theorem setId_rep (h : Rep db K) {i : Name} (hi : Generic i) :
    Rep (db.call (.setDefaultIdentity i)).1 (after K (.setDefaultIdentity i)) := by
  unfold DB.call after
  dsimp only
  refine ⟨⟨h.ok.ids, h.ok.keys, h.ok.certs, fun n hn => ?_, h.ok.defKey, h.ok.defCert⟩, fun r => ?_, h.keys, h.certs⟩
  · dsimp only at hn
    split at hn
    · rename_i h1
      injection hn with hn
      exact hn ▸ h1
    · cases hn
  · have key : ∀ n, K.identity n = true →
        (if uriOf n = uriOf i then ({ uri := uriOf n, isDefault := true } : IdRow) else { uri := uriOf n, isDefault := false }) =
          ⟨uriOf n, decide ((if K.identity i then some i else none) = some n)⟩ := by
      intro n hn
      by_cases e : n = i
      · subst e
        rw [if_pos rfl, hn]
        simp
      · rw [if_neg (fun e' => e ((uri_iff (h.ok.ids n hn) hi).mp e'))]
        congr 1
        rw [eq_comm, decide_eq_false_iff_not]
        intro e'
        split at e'
        · injection e' with e'
          exact e e'.symm
        · cases e'
    dsimp only
    simp only [List.map_map, List.mem_map, Function.comp]
    constructor
    · rintro ⟨r0, h1, rfl⟩
      obtain ⟨n, h2, rfl⟩ := (h.ids r0).mp h1
      exact ⟨n, h2, key n h2⟩
    · rintro ⟨n, h2, rfl⟩
      exact ⟨_, (h.ids _).mpr ⟨n, h2, rfl⟩, key n h2⟩

theorem check_iff {k : Name} {check : Option Name} :
    (check.any fun n => !n.isEmpty && !n.equals k.dropLast) = true ↔ mismatch k check := by
  unfold mismatch
  cases check with
  | none => simp
  | some n =>
    rw [Option.any_some, Bool.and_eq_true, Bool.not_eq_true', Bool.not_eq_true', ← Bool.not_eq_true, ← Bool.not_eq_true, name_equals_iff,
      List.isEmpty_iff]
    constructor
    · exact fun h => ⟨n, rfl, h⟩
    · rintro ⟨i, h1, h2⟩
      injection h1 with h1
      exact h1 ▸ h2

open Classical in
theorem setKey_rep (h : Rep db K) {k : Name} (hk : KeyName k) (check : Option Name) :
    Rep (db.call (.setDefaultKeyNameForIdentity k check)).1 (after K (.setDefaultKeyNameForIdentity k check)) := by
  unfold DB.call after
  dsimp only
  rw [columns_key hk]
  dsimp only
  by_cases hm : mismatch k check
  · rw [if_pos (check_iff.mpr hm), if_pos hm]
    exact h
  rw [if_neg (fun e => hm (check_iff.mp e)), if_neg hm]
  refine ⟨⟨h.ok.ids, h.ok.keys, h.ok.certs, h.ok.defId, fun i n hn => ?_, h.ok.defCert⟩, h.ids, fun r => ?_, h.certs⟩
  · dsimp only at hn
    split at hn
    · rename_i h1
      split at hn
      · rename_i h2
        injection hn with hn
        subst hn
        exact ⟨h1.symm, Option.isSome_iff_exists.mp h2⟩
      · cases hn
    · exact h.ok.defKey i n hn
  · have key : ∀ n d, K.key n = some d → ∀ b, b = decide (K.defaultKey n.dropLast = some n) →
        (fun r : KeyRow => if r.identity = idOf k ∧ r.keyId = kidOf k then { r with isDefault := true } else r)
          (if idOf n = idOf k then { identity := idOf n, keyId := kidOf n, der := d, isDefault := false }
            else { identity := idOf n, keyId := kidOf n, der := d, isDefault := b }) =
          ⟨idOf n, kidOf n, d, decide ((if n.dropLast = k.dropLast then (if (K.key k).isSome then some k else none) else
            K.defaultKey n.dropLast) = some n)⟩ := by
      intro n d hn b hb
      have hkn := h.ok.keys n d hn
      by_cases e : n = k
      · subst e
        simp [hn]
      · have h1 : ¬ (idOf n = idOf k ∧ kidOf n = kidOf k) := fun e' => e ((cols_iff hkn hk).mp e')
        by_cases e2 : n.dropLast = k.dropLast
        · have h3 : idOf n = idOf k := (id_iff hkn (generic_dropLast hk.1)).mpr e2
          rw [if_pos h3, if_pos e2]
          dsimp only
          rw [if_neg h1]
          congr 1
          rw [eq_comm, decide_eq_false_iff_not]
          intro e'
          split at e'
          · injection e' with e'
            exact e e'.symm
          · cases e'
        · have h3 : ¬ idOf n = idOf k := fun e' => e2 ((id_iff hkn (generic_dropLast hk.1)).mp e')
          rw [if_neg h3, if_neg e2]
          dsimp only
          rw [if_neg h1, hb]
    dsimp only
    simp only [List.map_map, List.mem_map, Function.comp]
    constructor
    · rintro ⟨r0, h1, rfl⟩
      obtain ⟨n, d, h2, rfl⟩ := (h.keys r0).mp h1
      exact ⟨n, d, h2, key n d h2 _ rfl⟩
    · rintro ⟨n, d, h2, rfl⟩
      exact ⟨_, (h.keys _).mpr ⟨n, d, h2, rfl⟩, key n d h2 _ rfl⟩

open Classical in
theorem setCert_rep (h : Rep db K) {k n : Name} (hk : KeyName k) (hn : Generic n) :
    Rep (db.call (.setDefaultCertificateNameForKey k n)).1 (after K (.setDefaultCertificateNameForKey k n)) := by
  unfold DB.call after
  dsimp only
  rw [columns_key hk]
  dsimp only
  refine ⟨⟨h.ok.ids, h.ok.keys, h.ok.certs, h.ok.defId, h.ok.defKey, fun k' m hm => ?_⟩, h.ids, h.keys, fun r => ?_⟩
  · dsimp only at hm
    split at hm
    · rename_i h1
      split at hm
      · rename_i h2
        injection hm with hm
        subst hm
        obtain ⟨x, h3, h4⟩ := Option.map_eq_some_iff.mp h2
        exact ⟨x.2, by dsimp only; rw [h3, h1, ← h4]⟩
      · cases hm
    · exact h.ok.defCert k' m hm
  · have key : ∀ m k' e, K.cert m = some (k', e) → ∀ b, b = decide (K.defaultCert k' = some m) →
        (fun r : CertRow => if r.identity = idOf k ∧ r.keyId = kidOf k ∧ r.uri = uriOf n then { r with isDefault := true } else r)
          (if idOf k' = idOf k ∧ kidOf k' = kidOf k then
              { uri := uriOf m, identity := idOf k', keyId := kidOf k', encoding := e, isDefault := false }
            else { uri := uriOf m, identity := idOf k', keyId := kidOf k', encoding := e, isDefault := b }) =
          ⟨uriOf m, idOf k', kidOf k', e, decide ((if k' = k then (if (K.cert n).map Prod.fst = some k then some n else none) else
            K.defaultCert k') = some m)⟩ := by
      intro m k' e hm b hb
      obtain ⟨hgm, hk'⟩ := h.ok.certs m k' e hm
      by_cases e1 : k' = k
      · subst e1
        rw [if_pos ⟨rfl, rfl⟩, if_pos rfl]
        dsimp only
        by_cases e2 : m = n
        · subst e2
          simp [hm]
        · rw [if_neg (fun e' => e2 ((uri_iff hgm hn).mp e'.2.2))]
          congr 1
          rw [eq_comm, decide_eq_false_iff_not]
          intro e'
          split at e'
          · injection e' with e'
            exact e2 e'.symm
          · cases e'
      · have h1 : ¬ (idOf k' = idOf k ∧ kidOf k' = kidOf k) := fun e' => e1 ((cols_iff hk' hk).mp e')
        rw [if_neg h1, if_neg e1]
        dsimp only
        rw [if_neg (fun e' => h1 ⟨e'.1, e'.2.1⟩), hb]
    dsimp only
    simp only [List.map_map, List.mem_map, Function.comp]
    constructor
    · rintro ⟨r0, h1, rfl⟩
      obtain ⟨m, k', e, h2, rfl⟩ := (h.certs r0).mp h1
      exact ⟨m, k', e, h2, key m k' e h2 _ rfl⟩
    · rintro ⟨m, k', e, h2, rfl⟩
      exact ⟨_, (h.certs _).mpr ⟨m, k', e, h2, rfl⟩, key m k' e h2 _ rfl⟩

/-! ### Calls -/

open Classical in
theorem call_ok (h : Rep db K) {o : Op} (ho : Fine o) : (db.call o).2 = answer K o ∧ Rep (db.call o).1 (after K o) := by
  cases o with
  | doesIdentityExist i => exact ⟨by show Obs.bool _ = Obs.bool _; rw [hasIdentity_eq h ho], h⟩
  | addIdentity i => exact ⟨rfl, addIdentity_rep h ho⟩
  | doesKeyExist k =>
    unfold DB.call
    dsimp only
    rw [columns_key ho]
    exact ⟨by show Obs.bool _ = Obs.bool _; rw [hasKey_eq h ho], h⟩
  | addKey k der =>
    unfold DB.call
    dsimp only
    rw [columns_key ho]
    exact ⟨rfl, addKey_rep h ho der⟩
  | getKey k =>
    have h1 := getKey_eq h ho
    unfold DB.call answer
    dsimp only
    rw [columns_key ho, ← h1]
    dsimp only
    split
    · rename_i r hr
      rw [hr]
      exact ⟨rfl, h⟩
    · rename_i hr
      rw [hr]
      exact ⟨rfl, h⟩
  | deletePublicKeyInfo k =>
    refine ⟨?_, deleteKey_rep h ho⟩
    unfold DB.call
    dsimp only
    rw [columns_key ho]
    rfl
  | doesCertificateExist n => exact ⟨by show Obs.bool _ = Obs.bool _; rw [hasCert_eq h ho], h⟩
  | addCertificate c =>
    have h1 := addKey_rep h ho.2 c.keyDer
    unfold DB.call after
    dsimp only
    rw [columns_key ho.2]
    dsimp only
    rw [hasCert_eq h1 ho.1]
    split
    · exact ⟨rfl, h1⟩
    · rename_i hn
      exact ⟨rfl, addCert_rep h1 ho.1 ho.2 c.encoding (by simpa using hn)⟩
  | getCertificate n =>
    have h1 := getCert_eq h ho
    unfold DB.call answer
    dsimp only
    rw [← h1]
    split
    · rename_i r hr
      rw [hr]
      exact ⟨rfl, h⟩
    · rename_i hr
      rw [hr]
      exact ⟨rfl, h⟩
  | deleteCertificateInfo n =>
    refine ⟨?_, deleteCert_rep h ho⟩
    unfold DB.call
    dsimp only
    split <;> rfl
  | deleteIdentityInfo i => exact ⟨rfl, deleteId_rep h ho⟩
  | getDefaultIdentity =>
    have h1 := defaultId_eq h
    unfold DB.call answer
    dsimp only
    split
    · rename_i r hr
      rw [hr] at h1
      obtain ⟨n, h2, h3⟩ := Option.map_eq_some_iff.mp h1.symm
      refine ⟨?_, h⟩
      dsimp only
      rw [← h3, parse_uri (h.ok.ids n (h.ok.defId n h2)), h2]
      rfl
    · rename_i hr
      rw [hr] at h1
      rw [Option.map_eq_none_iff.mp h1.symm]
      exact ⟨rfl, h⟩
  | getDefaultKeyNameForIdentity i =>
    unfold DB.call answer
    dsimp only
    rw [defaultKey_eq h ho]
    cases K.defaultKey i <;> exact ⟨rfl, h⟩
  | getDefaultCertificateNameForKey k => exact ⟨defaultCert_eq h ho, h⟩
  | getDefaultCertificateNameForIdentity i =>
    unfold DB.call answer
    dsimp only
    rw [defaultKey_eq h ho]
    cases hd : K.defaultKey i with
    | none => exact ⟨rfl, h⟩
    | some k =>
      obtain ⟨_, d, h1⟩ := h.ok.defKey i k hd
      exact ⟨defaultCert_eq h (h.ok.keys k d h1), h⟩
  | setDefaultIdentity i => exact ⟨rfl, setId_rep h ho⟩
  | setDefaultKeyNameForIdentity k check =>
    refine ⟨?_, setKey_rep h ho check⟩
    unfold DB.call answer
    dsimp only
    rw [columns_key ho]
    dsimp only
    by_cases hm : mismatch k check
    · rw [if_pos (check_iff.mpr hm), if_pos hm]
    · rw [if_neg (fun e => hm (check_iff.mp e)), if_neg hm]
  | setDefaultCertificateNameForKey k n =>
    refine ⟨?_, setCert_rep h ho.1 ho.2⟩
    unfold DB.call
    dsimp only
    rw [columns_key ho.1]
    rfl

theorem empty_ok : Ok {} := by
  constructor <;> intros <;> rename_i h <;> cases h

theorem empty_rep : Rep {} {} := by
  refine ⟨empty_ok, fun r => ⟨(fun h => by cases h), ?_⟩, fun r => ⟨(fun h => by cases h), ?_⟩, fun r => ⟨(fun h => by cases h), ?_⟩⟩
  · rintro ⟨_, h, _⟩
    cases h
  · rintro ⟨_, _, h, _⟩
    cases h
  · rintro ⟨_, _, _, h, _⟩
    cases h

theorem run_ok (ops : List Op) : ∀ {db : DB} {K : Known}, Rep db K → (∀ o ∈ ops, Fine o) → (db.run ops).1 = answers K ops := by
  induction ops with
  | nil => exact fun _ _ => rfl
  | cons o os ih =>
    intro db K h ho
    obtain ⟨h1, h2⟩ := call_ok h (ho o (by simp))
    unfold DB.run answers
    dsimp only
    rw [h1, ih h2 fun o ho' => ho o (by simp [ho'])]

end PyNDN.IdentityStorage
