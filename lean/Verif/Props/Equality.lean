import Verif.Model.Equality
import Verif.Lemmas.Fields2
import Verif.Lemmas.Name
/-
C93: what `equals` says agrees with what is sent.
-/
namespace PyNDN.Equality
open Spec

theorem nameEq_iff (a b : Name) : a.equals b = true ↔ a = b := name_equals_iff a b

/-- C93: two Blobs are equal exactly if both are null or have the same bytes. -/
theorem C93_blob (a b : Option Bytes) : blobEquals a b = true ↔ a = b := by
  rcases a with _ | a <;> rcases b with _ | b <;> try simp [blobEquals]
  constructor
  · rintro ⟨hl, h⟩
    refine List.ext_getElem? fun i => ?_
    by_cases hi : i < a.length
    · exact h i hi
    · rw [List.getElem?_eq_none (by omega), List.getElem?_eq_none (by omega)]
  · rintro rfl
    exact ⟨rfl, fun _ _ => rfl⟩

/-- C93: two key locators are equal exactly if they have the same type and, as far as the type uses them, the same key name or digest. -/
theorem C93_keyLocator (a b : KeyLocator) : a.equals b = true ↔
    a.type = b.type ∧ (a.type = some 1 → a.keyName = b.keyName) ∧ (a.type = some 2 → a.keyData = b.keyData) := by
  unfold KeyLocator.equals
  by_cases ht : a.type = b.type
  · rw [if_neg (fun h => h ht)]
    by_cases h1 : a.type = some 1
    · by_cases hn : a.keyName.equals b.keyName = true
      · simp [h1, (nameEq_iff _ _).mp hn, (nameEq_iff b.keyName _).mpr rfl, ← ht]
      · have hne : a.keyName ≠ b.keyName := fun h => hn ((nameEq_iff _ _).mpr h)
        simp [h1, hn, hne]
    · by_cases h2 : a.type = some 2
      · by_cases hd : a.keyData = b.keyData
        · simp [h2, hd, ← ht]
        · simp [h2, hd]
      · simp [h1, h2, ht]
        rw [← ht]
        simp [h1, h2]
  · simp [ht]

/-- C93: `equals` of key locators is an equivalence. -/
theorem C93_keyLocator_equivalence (a b c : KeyLocator) :
    a.equals a = true ∧ (a.equals b = true → b.equals a = true) ∧ (a.equals b = true → b.equals c = true → a.equals c = true) := by
  simp only [C93_keyLocator]
  refine ⟨⟨trivial, fun _ => trivial, fun _ => trivial⟩, ?_, ?_⟩
  · rintro ⟨h, h1, h2⟩
    exact ⟨h.symm, fun e => (h1 (h.trans e)).symm, fun e => (h2 (h.trans e)).symm⟩
  · rintro ⟨h, h1, h2⟩ ⟨g, g1, g2⟩
    exact ⟨h.trans g, fun e => (h1 e).trans (g1 (h ▸ e)), fun e => (h2 e).trans (g2 (h ▸ e))⟩

/-- C93: key locators that are equal have the same encoding, or are both refused. -/
theorem C93_keyLocator_same {a b : KeyLocator} (h : a.equals b = true) (t : Nat) (out : Bytes) :
    encodeKeyLocator t a out = encodeKeyLocator t b out := by
  obtain ⟨h, h1, h2⟩ := (C93_keyLocator a b).mp h
  obtain ⟨ta, na, da⟩ := a
  obtain ⟨tb, nb, db⟩ := b
  cases (show ta = tb from h)
  unfold encodeKeyLocator
  rcases ta with _ | n
  · rfl
  · by_cases e1 : n = 1
    · subst e1
      cases (show na = nb from h1 rfl)
      simp
    · by_cases e2 : n = 2
      · subst e2
        cases (show da = db from h2 rfl)
        simp
      · simp [e1, e2]

theorem at_one {t : Nat} {v w : Bytes} (ht : t < 2 ^ 64) (hw : tlv t v = w) (hl : w.length < 2 ^ 64) : At w 0 w.length [(t, v)] := by
  subst hw
  have := At.start (rest := []) ht (v := v) (by
    unfold tlv at hl
    simp only [List.length_append] at hl
    omega)
  rwa [List.append_nil] at this

/-- C93: key locators that can be sent are equal exactly if their encodings are the same. -/
theorem C93_keyLocator_sent {a b : KeyLocator} (ha : KeyLocatorOk a) (hb : KeyLocatorOk b) {t : Nat} (ht : t < 2 ^ 64) {w : Bytes}
    (hw : encodeKeyLocator t a [] = .ok w) (hl : w.length < 2 ^ 64) : a.equals b = true ↔ encodeKeyLocator t b [] = .ok w := by
  constructor
  · intro h
    rw [← C93_keyLocator_same h, hw]
  · intro h
    rw [encodeKeyLocator_spec t a ha, List.append_nil, flat_one] at hw
    rw [encodeKeyLocator_spec t b hb, List.append_nil, flat_one] at h
    injection hw with hw
    injection h with h
    have la := at_one ht hw hl
    have lb := at_one ht h hl
    obtain ⟨k, _, r1, s1, _⟩ := decodeKeyLocator_At ha la
    obtain ⟨k', _, r2, s2, _⟩ := decodeKeyLocator_At hb lb
    rw [r1] at r2
    cases r2
    exact (C93_keyLocator_equivalence a k b).2.2 ((C93_keyLocator _ _).mpr s1)
      ((C93_keyLocator_equivalence b k a).2.1 ((C93_keyLocator _ _).mpr s2))

/-- C93: two meta infos are equal exactly if the type, the freshness period and the final block ID are the same. -/
theorem C93_metaInfo (a b : MetaInfo) : metaInfoEquals a b = true ↔
    a.type = b.type ∧ a.freshnessPeriod = b.freshnessPeriod ∧ a.finalBlockId = b.finalBlockId := by
  unfold metaInfoEquals
  rw [Bool.and_eq_true, Bool.and_eq_true, component_equals_iff, beq_iff_eq, beq_iff_eq, and_assoc]

/-- C93: meta infos that are equal have the same encoding, or are both refused, if the type is not OTHER_CODE. -/
theorem C93_metaInfo_same_partial {a b : MetaInfo} (h : metaInfoEquals a b = true) (ht : a.type ≠ 0x7fff) (out : Bytes) :
    encodeMetaInfo a out = encodeMetaInfo b out := by
  obtain ⟨h1, h2, h3⟩ := (C93_metaInfo a b).mp h
  unfold encodeMetaInfo
  rw [← h1, ← h2, ← h3]
  simp only [ht, if_false]

/-- C93: meta infos that can be sent and have the same encoding are equal. -/
theorem C93_metaInfo_sent {a b : MetaInfo} (ha : MetaInfoOk a) (hb : MetaInfoOk b) {w : Bytes} (hw : encodeMetaInfo a [] = .ok w)
    (h : encodeMetaInfo b [] = .ok w) (hl : w.length < 2 ^ 64) : metaInfoEquals a b = true := by
  rw [encodeMetaInfo_spec a ha, List.append_nil, flat_one] at hw
  rw [encodeMetaInfo_spec b hb, List.append_nil, flat_one] at h
  injection hw with hw
  injection h with h
  obtain ⟨k, _, r1, s1, _⟩ := decodeMetaInfo_At (old := {}) ha (at_one (by decide) hw hl)
  obtain ⟨k', _, r2, s2, _⟩ := decodeMetaInfo_At (old := {}) hb (at_one (by decide) h hl)
  rw [r1] at r2
  cases r2
  rw [C93_metaInfo]
  exact ⟨s1.1.trans s2.1.symm, s1.2.2.1.trans s2.2.2.1.symm, s1.2.2.2.trans s2.2.2.2.symm⟩

/-- C93, departure: the other type codes are not compared.  Two meta infos with the types 4 and 5 are equal, but their encodings are not. -/
theorem C93_metaInfo_departure : ∃ a b : MetaInfo, metaInfoEquals a b = true ∧ MetaInfoOk a ∧ MetaInfoOk b ∧
    encodeMetaInfo a [] = .ok [20, 3, 24, 1, 4] ∧ encodeMetaInfo b [] = .ok [20, 3, 24, 1, 5] := by
  have c : Canonical (Component.generic []) := by unfold Canonical; simp [Component.generic]
  refine ⟨{ type := 0x7fff, otherTypeCode := 4 }, { type := 0x7fff, otherTypeCode := 5 }, by decide, ⟨.inr ⟨rfl, ?_, ?_⟩, ?_, c, fun _ => rfl⟩,
    ⟨.inr ⟨rfl, ?_, ?_⟩, ?_, c, fun _ => rfl⟩, by decide +kernel, by decide +kernel⟩ <;> first | decide | (intro f hf; cases hf)

/-- C93: two registration options are equal exactly if the flags that are sent are the same, whatever the origins are. -/
theorem C93_options (a b : RegOptions) : regOptionsEquals a b = true ↔ a.flags.toNfd = b.flags.toNfd := by
  obtain ⟨⟨a1, a2⟩, _⟩ := a
  obtain ⟨⟨b1, b2⟩, _⟩ := b
  show ((a1 == b1) && (a2 == b2)) = true ↔ RegFlags.toNfd ⟨a1, a2⟩ = RegFlags.toNfd ⟨b1, b2⟩
  revert a1 a2 b1 b2
  decide

/-- C93, departure: `equals` of ControlParameters is never True.  Of an object with itself it raises, and of two objects, even if they are
copies, it is False. -/
theorem C93_controlParameters_departure (a b : ControlParameters) :
    (∀ same, controlParametersEquals same a b ≠ some true) ∧ controlParametersEquals true a a = none ∧ controlParametersEquals false a a = some false := by
  have hn : optNameEq a.name a.name = true := by
    rcases a.name with _ | n
    · rfl
    · exact (nameEq_iff n n).mpr rfl
  have hs : a.strategy.equals a.strategy = true := (nameEq_iff _ _).mpr rfl
  refine ⟨fun same => ?_, ?_, ?_⟩
  · unfold controlParametersEquals
    split <;> simp
  · unfold controlParametersEquals
    simp [hn, hs]
  · unfold controlParametersEquals
    simp

/-- Key locators that are equal though they are not the same, and two that are not equal. -/
example : KeyLocator.equals { type := some 2, keyName := [Component.generic [1]], keyData := some [7] } { type := some 2, keyData := some [7] } = true ∧
    KeyLocator.equals { type := some 2, keyData := some [7] } { type := some 2, keyData := some [8] } = false ∧
    encodeKeyLocator 28 { type := some 2, keyData := some [7] } [] = .ok [28, 3, 29, 1, 7] := by decide +kernel

example : KeyLocatorOk { type := some 2, keyData := some [7] } := .inr (.inr ⟨rfl, [7], rfl, by simp⟩)

/-- Meta infos that can be sent, with the same encoding and other type codes that do not matter. -/
example : MetaInfoOk { type := 2, freshnessPeriod := some 10 } ∧
    encodeMetaInfo { type := 2, freshnessPeriod := some 10 } [] = .ok [20, 6, 24, 1, 2, 25, 1, 10] ∧
    encodeMetaInfo { type := 2, otherTypeCode := 9, freshnessPeriod := some 10 } [] = .ok [20, 6, 24, 1, 2, 25, 1, 10] ∧
    metaInfoEquals { type := 2, freshnessPeriod := some 10 } { type := 2, otherTypeCode := 9, freshnessPeriod := some 10 } = true := by
  have c : Canonical (Component.generic []) := by unfold Canonical; simp [Component.generic]
  exact ⟨⟨.inl (by decide), fun f hf => by cases hf; decide, c, fun _ => rfl⟩, by decide +kernel, by decide +kernel, by decide⟩

end PyNDN.Equality
