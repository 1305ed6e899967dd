import Verif.Lemmas.GroupCalls
/-! The names and the packets of `getGroupKey`. -/
namespace PyNDN.Group
open Encrypt (Schedule Interval GroupSchedule Allowed Askable Mem pyRound encodeEncryptedContent midnight)
open EncV1 Spec Spec.Group
open _root_.PyNDN.Spec.PibSqlite (upd NameOk)

variable {P : Params}

theorem pyRound_int (k : Int) : pyRound (k : ℚ) = k := by
  unfold pyRound
  simp

theorem stamp_of {t : ℚ} {a : Int} (h1 : 0 ≤ a) (h2 : a ≤ 24) (lo : -30610224000000 ≤ midnight t) (hi : midnight t + 86400000 < 253402300800000) {x : ℚ}
    (hx : x = midnight t + a * 3600000) : ∃ (ms : Int) (c : Component), x = ms ∧ isoComponent x = .ok c ∧ Stamp c ms ∧ ∃ v, c = .generic v ∧ v.length = 15 := by
  obtain ⟨k, hk⟩ := Encrypt.midnight_mult t
  have hx' : x = ((midnight t + a * 3600000 : Int) : ℚ) := by rw [hx]; push_cast; ring
  have hd : x / 1000 = ((k * 86400 + a * 3600 : Int) : ℚ) := by
    rw [hx', hk]; push_cast; ring
  have hm : (k * 86400 + a * 3600) * 1000 = midnight t + a * 3600000 := by rw [hk]; ring
  obtain ⟨tt, ht, _, y1, y2, _⟩ := datetimeFromSeconds_spec (k * 86400 + a * 3600) (by omega) (by omega)
  have hr : roundThousand (midnight t + a * 3600000) = k * 86400 + a * 3600 := by
    unfold roundThousand; simp only; rw [if_pos (by omega)]; omega
  have hs : toIsoString (midnight t + a * 3600000) = .ok (strftimeIso tt) := by
    unfold toIsoString; rw [hr, ht]; rfl
  refine ⟨midnight t + a * 3600000, .generic (asciiBytes (strftimeIso tt)), hx', ?_, ⟨by omega, _, hs, rfl⟩, _, rfl, ?_⟩
  · unfold isoComponent
    rw [hd, pyRound_int, hm, hs]
    rfl
  · unfold strftimeIso pad2
    rw [decimal4 _ y1 y2]
    simp [asciiBytes]

theorem canonical_generic (v : Bytes) : Canonical (.generic v) := trivial

theorem space_eq : P.space = P.pre ++ [readC] ++ P.dataType := by simp [Params.space]

theorem flat_fields_append (a b : Name) : flat (nameFields (a ++ b)) = flat (nameFields a) ++ flat (nameFields b) := by
  unfold nameFields
  rw [List.map_append, flat_append]

theorem ekeyName_ok (hP : Sound P) {v w : Bytes} (hv : v.length = 15) (hw : w.length = 15) : NameOk (P.space ++ [eKeyC, .generic v, .generic w]) := by
  constructor
  · intro c hc
    rcases List.mem_append.mp hc with hc | hc
    · rw [space_eq] at hc; exact hP.name c hc
    · simp only [List.mem_cons, List.not_mem_nil, or_false] at hc
      rcases hc with rfl | rfl | rfl <;> exact canonical_generic _
  · rw [flat_fields_append, List.length_append, space_eq]
    have h1 := hP.size
    have e : ∀ u : Bytes, key (.generic u) = (8, u) := fun u => rfl
    have h2 : (flat (nameFields [eKeyC, .generic v, .generic w])).length = 41 := by
      unfold nameFields eKeyC
      simp only [List.map_cons, List.map_nil, e, flat_cons, flat_nil, List.length_append, List.length_nil, tlv_length, hv, hw]
      rfl
    omega

/-! ### D-KEYs -/

theorem locator_ok {n : Name} (h : CanonicalName n) : KeyLocatorOk { type := some 1, keyName := n } := .inr (.inl ⟨rfl, h⟩)

theorem encrypted_ok (c : Encrypt.EncryptedContent) {a : Nat} (ha : c.algorithmType = some a) {n : Name} (hk : c.keyLocator = { type := some 1, keyName := n })
    (hn : CanonicalName n) : ∃ w, encodeEncryptedContent c = .ok w := ⟨_, Encrypt.C67_encoding_v1 c a ha (by rw [hk]; exact locator_ok hn)⟩

theorem encryptDataRsa_ok {R : Rsa} {A : Nac.Aes} {k : Name} {key : Bytes} (hk : CanonicalName k) (hkey : KeyOk R key) (data : Data) (plain : Bytes) {rnd : Random}
    (h1 : rnd.nonce.length = 16) (h2 : rnd.iv.length = 16) :
    ∃ c, encryptDataRsa R A data plain k key rnd = .ok { data with name := data.name ++ forC :: k, content := some c } ∧ Sealed R A k key plain c := by
  unfold encryptDataRsa
  rcases hkey plain rnd.pad1 with ⟨cipher, hc⟩ | ⟨hl, _⟩
  · obtain ⟨w, hw⟩ := encrypted_ok (asymmetric cipher k) rfl rfl hk
    refine ⟨w, ?_, .inl ⟨_, cipher, hc, hw⟩⟩
    dsimp only
    rw [hc]
    dsimp only
    rw [hw]
    rfl
  · have h3 : ∃ cipher, R.encrypt key rnd.nonce rnd.pad2 = .ok cipher := by
      rcases hkey rnd.nonce rnd.pad2 with h | ⟨_, h⟩
      · exact h
      · omega
    obtain ⟨cipher, hc⟩ := h3
    obtain ⟨w, hw⟩ := encrypted_ok (asymmetric cipher k) rfl rfl hk
    have hkn : CanonicalName (k ++ [nonceC]) := by
      intro c hc
      rcases List.mem_append.mp hc with hc | hc
      · exact hk c hc
      · rw [List.mem_singleton.mp hc]; exact canonical_generic _
    obtain ⟨v, hv⟩ := encrypted_ok 
      { algorithmType := some 1
        keyLocator := { type := some 1, keyName := k ++ [nonceC] }
        initialVector := some rnd.iv
        payload := some (A.encryptCbc rnd.nonce rnd.iv plain) } rfl rfl hkn
    refine ⟨w ++ v, ?_, .inr ⟨_, cipher, rnd.nonce, rnd.iv, w, v, ⟨_, hl⟩, h1, h2, hc, hw, hv, rfl⟩⟩
    have e0 : encryptSymmetric A plain rnd.nonce (k ++ [nonceC]) rnd.iv = .ok
      { algorithmType := some 1
        keyLocator := { type := some 1, keyName := k ++ [nonceC] }
        initialVector := some rnd.iv
        payload := some (A.encryptCbc rnd.nonce rnd.iv plain) } := by
      unfold encryptSymmetric
      rw [if_neg (by rw [h2]; simp)]
      rfl
    simp only [hl, e0, hc, hv, hw, bind, Except.bind, pure, Except.pure]

theorem createDKeys_ok (hP : Sound P) {start stop : Component} {priv : Bytes} {rnd : Nat → Random} (hr : ∀ i, (rnd i).nonce.length = 16 ∧ (rnd i).iv.length = 16) :
    ∀ {ms : List (Name × Bytes)} (i : Nat), (∀ k key, (k, key) ∈ ms → CanonicalName k ∧ KeyOk P.rsa key) →
    ∃ ds, createDKeys P start stop priv rnd i ms = .ok ds ∧
      List.Forall₂ (fun m d => d.name = P.pre ++ [readC] ++ P.dataType ++ [dKeyC, start, stop, forC] ++ m.1 ∧
        d.metaInfo.freshnessPeriod = some (P.freshnessHours * 3600000) ∧
        ∃ c, d.content = some c ∧ Sealed P.rsa P.aes m.1 m.2 priv c) ms ds := by
  intro ms
  induction ms with
  | nil => exact fun _ _ => ⟨[], rfl, .nil⟩
  | cons m ms ih =>
    obtain ⟨k, key⟩ := m
    intro i h
    obtain ⟨ds, h1, h2⟩ := ih (i + 1) fun k' key' hm => h k' key' (List.mem_cons_of_mem _ hm)
    obtain ⟨hk, hkey⟩ := h k key (by simp)
    obtain ⟨c, e1, e2⟩ := encryptDataRsa_ok (A := P.aes) hk hkey
      { name := P.space ++ [dKeyC, start, stop], metaInfo := { freshnessPeriod := some (P.freshnessHours * 3600000) } } priv (hr i).1 (hr i).2
    obtain ⟨d, f1, f2, f3, f4⟩ := hP.sign
      { name := P.space ++ [dKeyC, start, stop] ++ forC :: k, metaInfo := { freshnessPeriod := some (P.freshnessHours * 3600000) }, content := some c }
    refine ⟨d :: ds, ?_, .cons ⟨?_, ?_, c, f4, e2⟩ h2⟩
    · unfold createDKeys createDKeyData
      show ((encryptDataRsa P.rsa P.aes _ priv k key (rnd i) >>= P.sign) >>= _) = _
      rw [e1]
      show (P.sign _ >>= _) = _
      rw [f1]
      show (createDKeys P start stop priv rnd (i + 1) ms >>= _) = _
      rw [h1]
      rfl
    · rw [f2, space_eq]; simp
    · rw [f3]

/-! ### The order -/

theorem lt_iff (a b : Name) : a.compare b < 0 ↔ nameLt a b := by
  rw [← C11_compare_lt]
  rcases C11_total a b with h | h | h <;> rw [h] <;> decide

theorem sorted_spec {keys : List (Name × Bytes)} (hn : (keys.map Prod.fst).Nodup) (hc : ∀ k key, (k, key) ∈ keys → CanonicalName k) :
    ((sortedKeys keys).map Prod.fst).Pairwise nameLt ∧ ∀ m, m ∈ sortedKeys keys ↔ m ∈ keys := by
  have hperm : (sortedKeys keys).Perm keys := List.perm_insertionSort _ _
  have hnd : ((sortedKeys keys).map Prod.fst).Nodup := ((hperm.map _).nodup_iff).mpr hn
  have hle : ∀ a b : Name × Bytes, (¬ b.1.compare a.1 < 0) ↔ a.1.compare b.1 ≤ 0 := by
    intro a b
    rw [C11_antisymmetric b.1 a.1]
    omega
  have : Std.Total (fun a b : Name × Bytes => ¬ b.1.compare a.1 < 0) := ⟨fun a b => by
    rw [hle, hle, C11_antisymmetric b.1 a.1]
    omega⟩
  have : IsTrans (Name × Bytes) (fun a b : Name × Bytes => ¬ b.1.compare a.1 < 0) := ⟨fun a b c h1 h2 => by
    rw [hle] at h1 h2 ⊢
    exact C11_transitive _ _ _ h1 h2⟩
  have hs : (sortedKeys keys).Pairwise (fun a b => ¬ b.1.compare a.1 < 0) := List.pairwise_insertionSort _ _
  refine ⟨?_, fun m => hperm.mem_iff⟩
  rw [List.pairwise_map]
  have hnd' : (sortedKeys keys).Pairwise (fun a b => a.1 ≠ b.1) := List.pairwise_map.mp hnd
  refine (hs.and hnd').imp_of_mem ?_
  rintro ⟨a, x⟩ ⟨b, y⟩ ha hb ⟨h1, h2⟩
  have h1' : a.compare b ≤ 0 := (hle (a, x) (b, y)).mp h1
  have h2 : a ≠ b := h2
  rw [← lt_iff]
  show a.compare b < 0
  rcases C11_total a b with h | h | h
  · omega
  · exfalso
    have ca := hc a x (hperm.mem_iff.mp ha)
    have cb := hc b y (hperm.mem_iff.mp hb)
    exact h2 ((C11_equals_iff a b).mp ((C11_compare_zero_iff_equals a b ca cb).mp h))
  · omega

end PyNDN.Group
