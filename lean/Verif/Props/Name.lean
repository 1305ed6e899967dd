import Verif.Lemmas.Name
import Verif.Lemmas.Stable
import Verif.Model.NameHash
/-
Property theorems C09-C12, C14-C17 about names.
-/
namespace PyNDN
open Spec (key keyLt compLt nameLt Canonical CanonicalName nameFields nameTlv flat tlv pySlice)

/-! ## C09 wire round trip -/

theorem encodeComponents_spec (n : Name) (out : Bytes) :
    encodeComponents n out = flat (nameFields n) ++ out := by
  induction n with
  | nil => rfl
  | cons c cs ih =>
    simp only [encodeComponents, encodeNameComponent, writeBlobTlv_some, ih, nameFields,
      List.map_cons, flat_cons, key, List.append_assoc]

theorem encodeNameTo_spec (n : Name) (out : Bytes) : encodeNameTo n out = nameTlv n ++ out := by
  unfold encodeNameTo
  simp only [encodeComponents_spec, List.length_append, Nat.add_sub_cancel]
  rw [writeTypeAndLength_tlv]; rfl

/-- The size condition: the whole name fits the 64-bit length field. -/
def NameSized (n : Name) : Prop := (flat (nameFields n)).length < 2 ^ 64

theorem flat_length_ge {l : List (Nat × Bytes)} {p} (h : p ∈ l) : p.2.length ≤ (flat l).length := by
  induction l with
  | nil => simp at h
  | cons q l ih =>
    rw [flat_cons, List.length_append, tlv_length]
    rcases List.mem_cons.mp h with rfl | h
    · omega
    · have := ih h; omega

theorem canonical_code_lt {c : Component} (h : Canonical c) : c.type.code < 2 ^ 64 := by
  obtain ⟨t, v⟩ := c
  cases t <;> simp [CType.code, Canonical] at *
  exact h.2.2.2

theorem nameFields_ok {n : Name} (hc : CanonicalName n) (hs : NameSized n) :
    FieldsOk (nameFields n) := by
  intro p hp
  obtain ⟨c, hc', rfl⟩ := List.mem_map.mp hp
  exact ⟨canonical_code_lt (hc c hc'), Nat.lt_of_le_of_lt (flat_length_ge hp) hs⟩

theorem componentOf_key {c : Component} (h : Canonical c) : componentOf c.type.code c.value = .ok c := by
  obtain ⟨t, v⟩ := c
  cases t <;> simp [CType.code, Canonical, componentOf, Component.fromImplicitSha256Digest,
    Component.fromParametersSha256Digest, Component.generic] at *
  · exact h
  · exact h
  · simp [h]

theorem decodeNameComponent_At {inp off e l} {c : Component} (hc : Canonical c)
    (h : At inp off e (key c :: l)) :
    ∃ off', decodeNameComponent.run inp off = .ok (c, off') ∧ At inp off' e l := by
  obtain ⟨rest, hd⟩ := h.head
  obtain ⟨off', h1, h2⟩ := readBlobTlv_At h
  refine ⟨off', ?_, h2⟩
  unfold decodeNameComponent
  rw [Dec.bind_ok (getOffset_run _ _)]
  rw [tlv_append] at hd
  rw [Dec.bind_ok (readVarNumber_drop h.bound.1 hd), Dec.bind_ok (seek_run _ _ _), Dec.bind_ok h1,
    componentOf_key hc]
  rfl

theorem loopWhile_name {inp : Bytes} {e : Nat} (cs : Name) : CanonicalName cs →
    ∀ (fuel off : Nat) (acc : Name) (last : Nat), At inp off e (nameFields cs) → e ≤ off + fuel →
    ∃ last', (loopWhile e (σ := Name × Nat) (fun (name, _) => do
        let signedPortionEndOffset ← getOffset
        let c ← decodeNameComponent
        return (name ++ [c], signedPortionEndOffset)) fuel (acc, last)).run inp off
      = .ok ((acc ++ cs, last'), e) ∧
      (cs = [] → last' = last) ∧
      (∀ pre c, cs = pre ++ [c] → last' = off + (flat (nameFields pre)).length) := by
  induction cs with
  | nil =>
    intro _ fuel off acc last h _
    have := h.nil; subst this
    refine ⟨last, ?_, fun _ => rfl, by intro pre c h; simp at h⟩
    cases fuel <;> unfold loopWhile <;> rw [Dec.bind_ok (getOffset_run _ _)] <;> simp
  | cons c cs ih =>
    intro hc fuel off acc last h hf
    have h : At inp off e (key c :: nameFields cs) := h
    have hlt := h.lt
    obtain ⟨off', h1, h2⟩ := decodeNameComponent_At (hc c (by simp)) h
    have hnext := h.next
    obtain ⟨rest, hd⟩ := h.head
    have hoff' : off' = off + (tlv c.type.code c.value).length := by
      have e1 := h2.stop; have e2 := hnext.stop; omega
    have hp : 0 < (tlv c.type.code c.value).length := List.length_pos_iff.mpr (tlv_ne_nil _ _)
    cases fuel with
    | zero => omega
    | succ fuel =>
      obtain ⟨last', h3, h4, h5⟩ := ih (fun c hc' => hc c (by simp [hc'])) fuel off' (acc ++ [c]) off h2
        (by omega)
      refine ⟨last', ?_, by simp, ?_⟩
      · unfold loopWhile
        rw [Dec.bind_ok (getOffset_run _ _), if_pos hlt, Dec.bind_ok]
        · rw [h3]; simp
        · rw [Dec.bind_ok (getOffset_run _ _), Dec.bind_ok h1]; rfl
      · intro pre d hpre
        cases pre with
        | nil =>
          simp only [List.nil_append, List.cons.injEq] at hpre
          rw [h4 hpre.2]; simp [nameFields]
        | cons x pre =>
          simp only [List.cons_append, List.cons.injEq] at hpre
          obtain ⟨rfl, hpre⟩ := hpre
          rw [h5 pre d hpre, hoff']
          simp only [nameFields, List.map_cons, flat_cons, List.length_append, key]
          omega

/-- Decoding a name out of a packet, at any offset: the name, and where the components and the last
component begin. -/
theorem decodeNameFrom_At {inp off e l} {n : Name} (hc : CanonicalName n) (hs : NameSized n)
    (h : At inp off e ((7, flat (nameFields n)) :: l)) :
    ∃ off' b1 b2, decodeNameFrom.run inp off = .ok ((n, b1, b2), off') ∧ At inp off' e l ∧
      off' = off + (nameTlv n).length ∧ b1 + (flat (nameFields n)).length = off' ∧
      b2 = b1 + (flat (nameFields n.dropLast)).length := by
  obtain ⟨e', off1, h1, h2, h3⟩ := readNestedTlvsStart_At h (nameFields_ok hc hs)
  obtain ⟨last, h4, h5, h6⟩ := loopWhile_name n hc (e' - off1) off1 [] off1 h2 (by omega)
  refine ⟨e', off1, last, ?_, h3, ?_, h2.stop.symm, ?_⟩
  · unfold decodeNameFrom
    rw [Dec.bind_ok h1, Dec.bind_ok (getOffset_run _ _)]
    rw [Dec.bind_ok (a := (n, last)) (off' := e')]
    · simp only
      rw [Dec.bind_ok finishNestedTlvs_end]; rfl
    · unfold whileBefore
      rw [Dec.bind_ok (getOffset_run _ _)]
      simpa using h4
  · have e1 := h.next.stop
    have e2 := h3.stop
    unfold nameTlv; omega
  · by_cases hn : n = []
    · rw [h5 hn, hn]; simp [nameFields]
    · exact h6 n.dropLast (n.getLast hn) (List.dropLast_concat_getLast hn).symm

/-- The encoding is the specified TLV. -/
theorem C09_encoding (n : Name) : encodeName n = nameTlv n := by
  simp [encodeName, encodeNameTo_spec]

/-- Decoding the encoding (followed by any bytes) gives the name back. -/
theorem C09_roundtrip (n : Name) (hc : CanonicalName n) (hs : NameSized n) (rest : Bytes) :
    decodeName (encodeName n ++ rest) = .ok n := by
  rw [C09_encoding]
  obtain ⟨o, b1, b2, h, _, _, _, _⟩ := decodeNameFrom_At (l := []) hc hs
    (At.start (rest := rest) (by decide) hs)
  unfold decodeName
  show (match decodeNameFrom.run (tlv 7 (flat (nameFields n)) ++ rest) 0 with
    | .ok ((name, _, _), _) => Except.ok name
    | .error e => .error e) = _
  rw [h]

theorem encodeNameOffsets_eq (n : Name) (out : Bytes) :
    encodeNameOffsets n out =
      ((nameTlv n).length - (flat (nameFields n)).length,
       (nameTlv n).length - (flat (nameFields n)).length + (flat (nameFields n.dropLast)).length) := by
  have h1 : (encodeNameTo n out).length - (encodeComponents n out).length =
      (nameTlv n).length - (flat (nameFields n)).length := by
    rw [encodeNameTo_spec, encodeComponents_spec]; simp only [List.length_append]; omega
  unfold encodeNameOffsets
  simp only [h1]
  by_cases hn : n = []
  · subst hn; simp [nameFields]
  · rw [List.getLast?_eq_some_getLast hn]
    simp only
    congr 1
    have hsplit : flat (nameFields n) = flat (nameFields n.dropLast) ++ flat [key (n.getLast hn)] := by
      conv => lhs; rw [← List.dropLast_concat_getLast hn]
      simp [nameFields, flat_append]
    have hl : (encodeNameComponent (n.getLast hn) out).length = (flat [key (n.getLast hn)]).length + out.length := by
      unfold encodeNameComponent; rw [writeBlobTlv_some]; simp [flat, key]
    have hle : (flat (nameFields n)).length ≤ (nameTlv n).length := by
      unfold nameTlv; rw [tlv_length]; omega
    rw [encodeNameTo_spec, hl, List.length_append]
    rw [hsplit, List.length_append] at *
    omega

/-- The offsets reported with the encoding delimit the components without the last one (the portion
that is signed in a signed Interest), and the decoder reports the same offsets. -/
theorem C09_signed_portion (n : Name) (b e : Nat) (h : encodeNameOffsets n [] = (b, e)) :
    ((encodeName n).take e).drop b = flat (nameFields n.dropLast) ∧
    (encodeName n).drop e = flat (nameFields (n.drop (n.length - 1))) := by
  rw [encodeNameOffsets_eq] at h
  simp only [Prod.mk.injEq] at h
  obtain ⟨hb, he⟩ := h
  rw [C09_encoding]
  have hsplit : flat (nameFields n) = flat (nameFields n.dropLast) ++ flat (nameFields (n.drop (n.length - 1))) := by
    rw [← flat_append]
    unfold nameFields
    rw [← List.map_append, List.dropLast_eq_take, List.take_append_drop]
  obtain ⟨hdr, hh⟩ : ∃ hdr, nameTlv n = hdr ++ flat (nameFields n) := ⟨_, rfl⟩
  have hb' : b = hdr.length := by rw [← hb, hh]; simp
  have he' : e = hdr.length + (flat (nameFields n.dropLast)).length := by rw [← he, hb]; omega
  rw [hh, hsplit, hb', he', ← List.length_append, ← List.append_assoc, List.take_left, List.drop_left,
    List.drop_left]
  exact ⟨rfl, rfl⟩

theorem C09_decode_offsets (n : Name) (hc : CanonicalName n) (hs : NameSized n) (rest : Bytes) :
    ∃ b e off, decodeNameFrom.run (encodeName n ++ rest) 0 = .ok ((n, b, e), off) ∧
      encodeNameOffsets n [] = (b, e) ∧ off = (encodeName n).length := by
  rw [C09_encoding]
  obtain ⟨o, b1, b2, h, _, h1, h2, h3⟩ := decodeNameFrom_At (l := []) hc hs
    (At.start (rest := rest) (by decide) hs)
  refine ⟨b1, b2, o, h, ?_, by omega⟩
  rw [encodeNameOffsets_eq, h3]
  have : b1 = (nameTlv n).length - (flat (nameFields n)).length := by omega
  rw [this]

/-- Two names have the same encoding only if they are equal. -/
theorem C09_injective (a b : Name) (ha : CanonicalName a) (hb : CanonicalName b)
    (hsa : NameSized a) (hsb : NameSized b) (h : encodeName a = encodeName b) : a = b := by
  have h1 := C09_roundtrip a ha hsa []
  have h2 := C09_roundtrip b hb hsb []
  rw [h, h2] at h1
  exact (Except.ok.inj h1).symm

/-- The canonicity condition is needed: OTHER_CODE with the code of GENERIC is encoded like GENERIC. -/
theorem C09_noncanonical_collides :
    encodeName [⟨.other 8, [65]⟩] = encodeName [⟨.generic, [65]⟩] ∧
    decodeName (encodeName [⟨.other 8, [65]⟩]) = .ok [⟨.generic, [65]⟩] := by decide

example : CanonicalName [⟨.generic, [65]⟩, ⟨.other 32, []⟩, ⟨.implicit, List.replicate 32 7⟩] ∧
    NameSized [⟨.generic, [65]⟩, ⟨.other 32, []⟩, ⟨.implicit, List.replicate 32 7⟩] := by
  constructor
  · intro c hc; simp at hc; rcases hc with rfl | rfl | rfl <;> decide
  · unfold NameSized; decide
example : encodeName [⟨.generic, [65]⟩, ⟨.other 32, []⟩] = [7, 5, 8, 1, 65, 32, 0] := by decide

/-! ## C10 the order of components -/

theorem C10_compare_lt (a b : Component) : a.compare b = -1 ↔ compLt a b := by
  rcases component_compare_cases a b with ⟨h1, h2⟩ | ⟨h1, h2⟩ | ⟨h1, h2⟩ <;> rw [h1]
  · simp [h2]
  · unfold compLt; rw [h2]; simp [keyLt_irrefl]
  · simp [keyLt_asymm h2, compLt]

theorem C10_compare_gt (a b : Component) : a.compare b = 1 ↔ compLt b a := by
  rcases component_compare_cases a b with ⟨h1, h2⟩ | ⟨h1, h2⟩ | ⟨h1, h2⟩ <;> rw [h1]
  · simp [keyLt_asymm h2, compLt]
  · unfold compLt; rw [h2]; simp [keyLt_irrefl]
  · simp [h2]

/-- Zero exactly when type code and value agree. -/
theorem C10_compare_zero (a b : Component) :
    a.compare b = 0 ↔ (a.type.code = b.type.code ∧ a.value = b.value) := by
  have hk : (a.type.code = b.type.code ∧ a.value = b.value) ↔ key a = key b := by
    simp [key]
  rw [hk]
  rcases component_compare_cases a b with ⟨h1, h2⟩ | ⟨h1, h2⟩ | ⟨h1, h2⟩ <;> rw [h1]
  · simp; intro h; unfold compLt at h2; rw [h] at h2; exact keyLt_irrefl _ h2
  · simp [h2]
  · simp; intro h; unfold compLt at h2; rw [h] at h2; exact keyLt_irrefl _ h2

/-- Zero exactly for components that `equals` says are equal (canonical components). -/
theorem C10_compare_zero_iff_equals (a b : Component) (ha : Canonical a) (hb : Canonical b) :
    a.compare b = 0 ↔ a.equals b = true := by
  rw [C10_compare_zero, component_equals_iff]
  constructor
  · rintro ⟨h1, h2⟩; exact canonical_key ha hb (by simp [key, h1, h2])
  · rintro rfl; exact ⟨rfl, rfl⟩

/-- The condition is needed. -/
theorem C10_noncanonical_zero_but_not_equal :
    Component.compare ⟨.other 8, [65]⟩ ⟨.generic, [65]⟩ = 0 ∧
    Component.equals ⟨.other 8, [65]⟩ ⟨.generic, [65]⟩ = false := by decide

/-- `equals` is equality of type and value. -/
theorem C10_equals_iff (a b : Component) : a.equals b = true ↔ a = b := component_equals_iff a b

theorem C10_antisymmetric (a b : Component) : a.compare b = - b.compare a := by
  rcases component_compare_cases b a with ⟨h1, h2⟩ | ⟨h1, h2⟩ | ⟨h1, h2⟩ <;> rw [h1]
  · exact (C10_compare_gt a b).mpr h2
  · exact (C10_compare_zero a b).mpr (by simp only [key, Prod.mk.injEq] at h2; exact ⟨h2.1.symm, h2.2.symm⟩)
  · exact (C10_compare_lt a b).mpr h2

theorem C10_transitive (a b c : Component) (h1 : a.compare b ≤ 0) (h2 : b.compare c ≤ 0) :
    a.compare c ≤ 0 := by
  rcases component_compare_cases a b with ⟨e1, l1⟩ | ⟨e1, l1⟩ | ⟨e1, l1⟩
  · rcases component_compare_cases b c with ⟨e2, l2⟩ | ⟨e2, l2⟩ | ⟨e2, l2⟩
    · rw [(C10_compare_lt a c).mpr (keyLt_trans l1 l2)]; decide
    · unfold compLt at l1; rw [l2] at l1; rw [(C10_compare_lt a c).mpr l1]; decide
    · omega
  · rcases component_compare_cases b c with ⟨e2, l2⟩ | ⟨e2, l2⟩ | ⟨e2, l2⟩
    · unfold compLt at l2; rw [← l1] at l2; rw [(C10_compare_lt a c).mpr l2]; decide
    · have : key a = key c := l1.trans l2
      simp only [key, Prod.mk.injEq] at this
      rw [(C10_compare_zero a c).mpr this]; decide
    · omega
  · omega

/-- The result is always -1, 0 or 1, so any two components are comparable. -/
theorem C10_total (a b : Component) : a.compare b = -1 ∨ a.compare b = 0 ∨ a.compare b = 1 := by
  rcases component_compare_cases a b with ⟨h1, _⟩ | ⟨h1, _⟩ | ⟨h1, _⟩ <;> simp [h1]

example : compLt ⟨.generic, [200]⟩ ⟨.generic, [1, 0]⟩ ∧ compLt ⟨.implicit, [1, 0]⟩ ⟨.generic, [0]⟩ := by
  constructor <;> exact (C10_compare_lt _ _).mp (by decide)

/-! ## C11 the order of names -/

theorem C11_compare_lt (a b : Name) : a.compare b = -1 ↔ nameLt a b := by
  rcases name_compare_cases a b with ⟨h1, h2⟩ | ⟨h1, h2⟩ | ⟨h1, h2⟩ <;> rw [h1]
  · simp [h2]
  · unfold nameLt; rw [h2]; simp [lex_irrefl]
  · simp [lex_asymm h2, nameLt]

theorem C11_compare_gt (a b : Name) : a.compare b = 1 ↔ nameLt b a := by
  rcases name_compare_cases a b with ⟨h1, h2⟩ | ⟨h1, h2⟩ | ⟨h1, h2⟩ <;> rw [h1]
  · simp [lex_asymm h2, nameLt]
  · unfold nameLt; rw [h2]; simp [lex_irrefl]
  · simp [h2]

theorem C11_compare_zero_fields (a b : Name) : a.compare b = 0 ↔ nameFields a = nameFields b := by
  rcases name_compare_cases a b with ⟨h1, h2⟩ | ⟨h1, h2⟩ | ⟨h1, h2⟩ <;> rw [h1]
  · simp; intro h; unfold nameLt at h2; rw [h] at h2; exact lex_irrefl _ h2
  · simp [h2]
  · simp; intro h; unfold nameLt at h2; rw [h] at h2; exact lex_irrefl _ h2

/-- Zero exactly for equal names (canonical components). -/
theorem C11_compare_zero_iff_equals (a b : Name) (ha : CanonicalName a) (hb : CanonicalName b) :
    a.compare b = 0 ↔ a.equals b = true := by
  rw [C11_compare_zero_fields, name_equals_iff]
  exact ⟨canonical_fields ha hb, fun h => by rw [h]⟩

theorem C11_equals_iff (a b : Name) : a.equals b = true ↔ a = b := name_equals_iff a b

theorem C11_antisymmetric (a b : Name) : a.compare b = - b.compare a := by
  rcases name_compare_cases b a with ⟨h1, h2⟩ | ⟨h1, h2⟩ | ⟨h1, h2⟩ <;> rw [h1]
  · exact (C11_compare_gt a b).mpr h2
  · exact (C11_compare_zero_fields a b).mpr h2.symm
  · exact (C11_compare_lt a b).mpr h2

theorem C11_transitive (a b c : Name) (h1 : a.compare b ≤ 0) (h2 : b.compare c ≤ 0) :
    a.compare c ≤ 0 := by
  rcases name_compare_cases a b with ⟨e1, l1⟩ | ⟨e1, l1⟩ | ⟨e1, l1⟩
  · rcases name_compare_cases b c with ⟨e2, l2⟩ | ⟨e2, l2⟩ | ⟨e2, l2⟩
    · rw [(C11_compare_lt a c).mpr (lex_trans l1 l2)]; decide
    · unfold nameLt at l1; rw [l2] at l1; rw [(C11_compare_lt a c).mpr l1]; decide
    · omega
  · rcases name_compare_cases b c with ⟨e2, l2⟩ | ⟨e2, l2⟩ | ⟨e2, l2⟩
    · unfold nameLt at l2; rw [← l1] at l2; rw [(C11_compare_lt a c).mpr l2]; decide
    · rw [(C11_compare_zero_fields a c).mpr (l1.trans l2)]; decide
    · omega
  · omega

theorem C11_total (a b : Name) : a.compare b = -1 ∨ a.compare b = 0 ∨ a.compare b = 1 := by
  rcases name_compare_cases a b with ⟨h1, _⟩ | ⟨h1, _⟩ | ⟨h1, _⟩ <;> simp [h1]

theorem lex_append {a b : Fields} (h : b ≠ []) : List.Lex keyLt a (a ++ b) := by
  induction a with
  | nil => cases b with
    | nil => exact absurd rfl h
    | cons => exact List.Lex.nil
  | cons x xs ih => exact List.Lex.cons ih

/-- A proper prefix is ordered before its extensions. -/
theorem C11_prefix_first (a b : Name) (hb : b ≠ []) : a.compare (a ++ b) = -1 := by
  rw [C11_compare_lt]
  unfold nameLt nameFields
  rw [List.map_append]
  exact lex_append (by simpa using hb)

example : nameLt [⟨.generic, [65]⟩] [⟨.generic, [65]⟩, ⟨.generic, []⟩] :=
  (C11_compare_lt _ _).mp (by decide)

/-! ## C12 successors -/

theorem key_successor (c : Component) : (c.getSuccessor).type = c.type := by
  unfold Component.getSuccessor; rfl

theorem successor_value (c : Component) :
    (c.getSuccessor.value.length = c.value.length ∧
      accumulate c.getSuccessor.value = accumulate c.value + 1) ∨
    (c.getSuccessor.value.length = c.value.length + 1 ∧ accumulate c.getSuccessor.value = 0 ∧
      accumulate c.value + 1 = 256 ^ c.value.length) := by
  obtain ⟨h1, h2, h3⟩ := successorLoop_spec c.value
  unfold Component.getSuccessor
  simp only
  cases hc : (successorLoop c.value).2 with
  | false => left; simp [h1, h3 hc]
  | true =>
    right
    obtain ⟨h4, h5⟩ := h2 hc
    simp only [if_true, List.length_append, h1, List.length_cons, List.length_nil, h4]
    rw [accumulate_append, h5]
    refine ⟨trivial, ?_, trivial⟩
    have : accumulate (List.replicate c.value.length 0) = 0 := by
      generalize c.value.length = k
      induction k with
      | zero => rfl
      | succ k ih => rw [List.replicate_succ, accumulate_cons, ih]; simp
    rw [this]; rfl

theorem C12_component_greater (c : Component) : compLt c c.getSuccessor := by
  unfold compLt keyLt key
  simp only [key_successor, true_and]
  right
  rcases successor_value c with ⟨h1, h2⟩ | ⟨h1, _, _⟩
  · right
    refine ⟨h1.symm, ?_⟩
    rw [lt_iff_accumulate h1.symm]; omega
  · left; omega

theorem C12_component_same_type (c : Component) : c.getSuccessor.type = c.type := key_successor c

/-- Nothing lies strictly between a component and its successor. -/
theorem C12_component_immediate (c z : Component) (h : compLt c z) : ¬ compLt z c.getSuccessor := by
  unfold compLt keyLt key at *
  simp only [key_successor] at *
  intro h'
  have hcode : c.type.code = z.type.code := by omega
  have hc : c.value.length < z.value.length ∨ c.value.length = z.value.length ∧ c.value < z.value := by
    rcases h with h | h
    · omega
    · exact h.2
  have hz : z.value.length < c.getSuccessor.value.length ∨
      z.value.length = c.getSuccessor.value.length ∧ z.value < c.getSuccessor.value := by
    rcases h' with h' | h'
    · omega
    · exact h'.2
  rcases successor_value c with ⟨h1, h2⟩ | ⟨h1, h2, h3⟩
  · rcases hc with hc | ⟨hc, hc'⟩ <;> rcases hz with hz | ⟨hz, hz'⟩ <;> try omega
    rw [lt_iff_accumulate hc] at hc'
    rw [lt_iff_accumulate hz] at hz'
    omega
  · rcases hc with hc | ⟨hc, hc'⟩ <;> rcases hz with hz | ⟨hz, hz'⟩ <;> try omega
    · rw [lt_iff_accumulate hz] at hz'; omega
    · rw [lt_iff_accumulate hc] at hc'
      have := accumulate_lt z.value
      rw [← hc] at this; omega

theorem pyIndex_nonneg (l : List α) (i : Nat) (h : i < l.length) : pyIndex l (i : Int) = .ok l[i] := by
  unfold pyIndex
  have h1 : ¬ ((i : Int) < 0) := by omega
  simp [h1, h]

theorem mapM_pyIndex_range (l : List α) (a : Nat) : ∀ (k : Nat), a + k ≤ l.length →
    ((List.range k).map fun j => (a : Int) + Int.ofNat j).mapM (fun i => pyIndex l i)
      = .ok ((l.drop a).take k) := by
  intro k
  induction k with
  | zero => intro _; rfl
  | succ k ih =>
    intro h
    rw [List.range_succ, List.map_append, List.mapM_append, ih (by omega)]
    have hk : a + k < l.length := by omega
    simp only [List.map_cons, List.map_nil, List.mapM_cons, List.mapM_nil]
    have : (a : Int) + Int.ofNat k = ((a + k : Nat) : Int) := by simp
    rw [this, pyIndex_nonneg l (a + k) hk]
    have e : (l.drop a).take (k + 1) = (l.drop a).take k ++ [l[a + k]] := by
      rw [List.take_add_one]; simp [hk]
    rw [e]; rfl

/-- `getSubName` from a non-negative start is the clipped list slice. -/
theorem getSubName_nonneg (n : Name) (s : Nat) (k : Int) :
    getSubName n s (some k) = .ok ((n.drop s).take k.toNat) := by
  unfold getSubName
  have h1 : ¬ ((s : Int) < 0) := by omega
  simp only [h1, if_false]
  unfold pyRange
  by_cases hs : s ≤ n.length
  · by_cases hk : 0 ≤ k
    · have e1 : (min ((s : Int) + k) n.length - s).toNat = min k.toNat (n.length - s) := by omega
      rw [e1, mapM_pyIndex_range n s _ (by omega)]
      congr 1
      have hl : (n.drop s).length = n.length - s := by simp
      rw [← hl, List.take_eq_take_iff]; simp
    · have e1 : (min ((s : Int) + k) n.length - s).toNat = 0 := by omega
      have e2 : k.toNat = 0 := by omega
      rw [e1, e2]; rfl
  · have e1 : (min ((s : Int) + k) n.length - s).toNat = 0 := by omega
    rw [e1, List.drop_eq_nil_of_le (by omega)]; simp; rfl

theorem name_successor_eq (p : Name) (c : Component) :
    Name.getSuccessor (p ++ [c]) = .ok (p ++ [c.getSuccessor]) := by
  unfold Name.getSuccessor
  have h0 : ¬ (p ++ [c]).length = 0 := by simp
  rw [if_neg h0]
  have h1 : getPrefix (p ++ [c]) (-1) = .ok p := by
    unfold getPrefix
    rw [if_pos (by omega)]
    have := getSubName_nonneg (p ++ [c]) 0 ((p ++ [c]).length + -1)
    rw [show ((0 : Nat) : Int) = 0 from rfl] at this
    rw [this]
    congr 1
    simp only [List.length_append, List.length_cons, List.length_nil, List.drop_zero]
    rw [show ((p.length + (0 + 1) : Nat) : Int) + -1 = (p.length : Int) by omega]
    simp
  have h2 : pyIndex (p ++ [c]) (-1) = .ok c := by
    unfold pyIndex
    have : ¬ (((p ++ [c]).length : Int) + -1 < 0) := by simp; omega
    simp only [show (-1 : Int) < 0 by omega, if_true, this, if_false]
    have : (((p ++ [c]).length : Int) + -1).toNat = p.length := by simp; omega
    rw [this]; simp
  rw [h1, h2]; rfl

theorem lex_append_left {a b c : Fields} : List.Lex keyLt (a ++ b) (a ++ c) ↔ List.Lex keyLt b c := by
  induction a with
  | nil => rfl
  | cons x xs ih =>
    simp only [List.cons_append, lex_cons_iff, keyLt_irrefl, true_and, false_or]
    exact ih

/-- The successor of a non-empty name is greater than every extension of the name, ... -/
theorem C12_name_upper_bound (n m s : Name) (hs : n.getSuccessor = .ok s) (hn : n ≠ [])
    (hp : n <+: m) : nameLt m s := by
  obtain ⟨p, c, rfl⟩ : ∃ p c, n = p ++ [c] := ⟨n.dropLast, n.getLast hn, (List.dropLast_concat_getLast hn).symm⟩
  rw [name_successor_eq] at hs
  cases hs
  obtain ⟨t, rfl⟩ := hp
  unfold nameLt nameFields
  simp only [List.map_append, List.append_assoc, lex_append_left, List.map_cons, List.map_nil,
    List.cons_append, List.nil_append]
  exact List.Lex.rel (C12_component_greater c)

/-- ... and it is the least such name: every name greater than all extensions of `n` is at least the
successor. -/
theorem C12_name_least (n z s : Name) (hs : n.getSuccessor = .ok s) (hn : n ≠ [])
    (hz : ∀ m, n <+: m → nameLt m z) : ¬ nameLt z s := by
  obtain ⟨p, c, rfl⟩ : ∃ p c, n = p ++ [c] := ⟨n.dropLast, n.getLast hn, (List.dropLast_concat_getLast hn).symm⟩
  rw [name_successor_eq] at hs
  cases hs
  clear hn
  unfold nameLt nameFields at *
  induction p generalizing z with
  | nil =>
    cases z with
    | nil => have := hz [c] (by simp); cases this
    | cons d zs =>
      simp only [List.nil_append, List.map_cons, List.map_nil] at hz ⊢
      rw [lex_cons_iff]
      rintro (h | ⟨_, h⟩)
      · -- d < succ c, so d ≤ c
        have h1 := hz (c :: zs) (by simp)
        simp only [List.map_cons, lex_cons_iff] at h1
        rcases h1 with h1 | ⟨_, h1⟩
        · exact C12_component_immediate c d h1 h
        · exact lex_irrefl _ h1
      · cases zs <;> cases h
  | cons x p ih =>
    cases z with
    | nil => have := hz (x :: p ++ [c]) (List.prefix_refl _); cases this
    | cons d zs =>
      simp only [List.cons_append, List.map_cons] at hz ⊢
      rw [lex_cons_iff]
      have h0 := hz (x :: (p ++ [c])) (List.prefix_refl _)
      simp only [List.map_cons, lex_cons_iff] at h0
      rintro (h | ⟨h', h⟩)
      · rcases h0 with h0 | ⟨h0, _⟩
        · exact keyLt_asymm h h0
        · rw [h0] at h; exact keyLt_irrefl _ h
      · refine ih zs ?_ h
        intro m hm
        have := hz (x :: m) (by obtain ⟨t, rfl⟩ := hm; exact ⟨t, by simp⟩)
        simp only [List.map_cons, lex_cons_iff, h', keyLt_irrefl, true_and, false_or] at this
        exact this

/-- The successor of the empty name is the 32-byte zero digest, and it exists for every name. -/
theorem C12_name_successor_exists (n : Name) : ∃ s, n.getSuccessor = .ok s := by
  by_cases hn : n = []
  · subst hn; exact ⟨_, rfl⟩
  · obtain ⟨p, c, rfl⟩ : ∃ p c, n = p ++ [c] := ⟨n.dropLast, n.getLast hn, (List.dropLast_concat_getLast hn).symm⟩
    exact ⟨_, name_successor_eq p c⟩

/-- The successor of the empty name is the least non-empty name (among names that do not begin with a
component of the reserved type code 0). -/
theorem C12_empty_name (s m : Name) (hs : Name.getSuccessor [] = .ok s) (hm : m ≠ [])
    (hc : CanonicalName m) (h0 : ∀ c, m.head? = some c → c.type.code ≠ 0) :
    nameLt [] s ∧ ¬ nameLt m s := by
  cases hs
  refine ⟨List.Lex.nil, ?_⟩
  cases m with
  | nil => contradiction
  | cons c m =>
    have hcc : Canonical c := hc c (by simp)
    have hc0 : c.type.code ≠ 0 := h0 c rfl
    unfold nameLt nameFields
    simp only [List.map_cons, List.map_nil, lex_cons_iff, not_or, not_and, key, keyLt, CType.code]
    refine ⟨?_, fun _ h => by generalize List.map key m = x at h; cases h⟩
    refine ⟨by show ¬ c.type.code < 1; omega, fun h1 => ?_⟩
    have ht : c.value.length = 32 := by
      obtain ⟨t, v⟩ := c
      cases t with
      | implicit => exact hcc
      | params => simp [CType.code] at h1
      | generic => simp [CType.code] at h1
      | other k => exact absurd h1 hcc.1
    have ht' : ¬ c.value < List.replicate 32 0 := by
      rw [lt_iff_accumulate (by simp [ht])]
      have : ∀ k, accumulate (List.replicate k 0) = 0 := by
        intro k
        induction k with
        | zero => rfl
        | succ k ih => rw [List.replicate_succ, accumulate_cons, ih]; simp
      rw [this]; omega
    simp only [List.length_replicate]
    exact ⟨by omega, fun _ => ht'⟩

example : Component.getSuccessor ⟨.generic, [1, 255]⟩ = ⟨.generic, [2, 0]⟩ ∧
    Component.getSuccessor ⟨.generic, [255, 255]⟩ = ⟨.generic, [0, 0, 0]⟩ ∧
    Component.getSuccessor ⟨.generic, []⟩ = ⟨.generic, [0]⟩ := by decide

/-! ## C14 prefix matching -/

/-- `match` compares the component values only. -/
theorem C14_match_values (a b : Name) :
    a.matches b = true ↔ a.map Component.value <+: b.map Component.value := matches_iff a b

/-- Where the types of the components agree (for instance when all components are GENERIC), `match` is
exactly "the components of `a` are the first components of `b`".  What is missing from the full
property is names whose components have different types at the same position: see
`C14_ignores_type`. -/
theorem C14_match_iff_prefix_partial (a b : Name)
    (ht : ∀ i (ha : i < a.length) (hb : i < b.length), a[i].type = b[i].type) :
    a.matches b = true ↔ a <+: b := by
  rw [matches_iff]
  constructor
  · intro h
    induction a generalizing b with
    | nil => simp
    | cons x xs ih =>
      cases b with
      | nil => simp at h
      | cons y ys =>
        simp only [List.map_cons, List.cons_prefix_cons] at h ⊢
        refine ⟨?_, ih ys (fun i ha hb => ?_) h.2⟩
        · have := ht 0 (by simp) (by simp)
          obtain ⟨t1, v1⟩ := x
          obtain ⟨t2, v2⟩ := y
          simp_all
        · exact ht (i + 1) (by simpa using ha) (by simpa using hb)
  · exact fun h => h.map _

/-- The full property fails: a GENERIC and an IMPLICIT_SHA256_DIGEST component with the same bytes
match although they are different components (name.py:1089-1091 compares values only). -/
theorem C14_ignores_type :
    Name.matches [⟨.generic, List.replicate 32 1⟩] [⟨.implicit, List.replicate 32 1⟩] = true ∧
    ¬ ([⟨.generic, List.replicate 32 1⟩] : Name) <+: [⟨.implicit, List.replicate 32 1⟩] := by
  constructor
  · decide
  · decide

/-- Being a prefix always implies matching. -/
theorem C14_prefix_matches (a b : Name) (h : a <+: b) : a.matches b = true := by
  rw [matches_iff]; exact h.map _

theorem C14_reflexive (a : Name) : a.matches a = true := C14_prefix_matches a a (List.prefix_refl a)
theorem C14_transitive (a b c : Name) (h1 : a.matches b = true) (h2 : b.matches c = true) :
    a.matches c = true := by
  rw [matches_iff] at *; exact h1.trans h2
theorem C14_empty (a : Name) : Name.matches [] a = true := by simp [matches_iff]

example : Name.matches [⟨.generic, [1]⟩] [⟨.generic, [1]⟩, ⟨.generic, [2]⟩] = true ∧
    Name.matches [⟨.generic, [2]⟩] [⟨.generic, [1]⟩, ⟨.generic, [2]⟩] = false := by decide

/-! ## C15 numbered components -/

theorem accumulate_be (k n : Nat) : n < 256 ^ k → accumulate (Spec.be k n) = n := by
  induction k generalizing n with
  | zero => intro h; simp at h; subst h; rfl
  | succ k ih =>
    intro h
    unfold Spec.be
    rw [accumulate_append, ih _ (by rw [Nat.pow_succ] at h; omega)]
    simp only [UInt8.toNat_ofNat']
    omega

theorem accumulate_nonNeg (n : Nat) (h : n < 2 ^ 64) : accumulate (Spec.nonNeg n) = n := by
  unfold Spec.nonNeg
  repeat' split
  all_goals exact accumulate_be _ _ (by simp only [Nat.reducePow]; omega)

theorem fromNumberWithMarker_eq (n : Nat) (m : UInt8) :
    Component.fromNumberWithMarker n m = .ok ⟨.generic, m :: Spec.nonNeg n⟩ := by
  have h1 : ¬ ((n : Int) < 0) := by omega
  have h2 : ¬ ((m.toNat : Int) < 0) := by omega
  have hm := m.toNat_lt
  have h3 : nonNegIntBytes m.toNat = [m] := by
    unfold nonNegIntBytes
    rw [if_pos (by omega), byteAtShift_eq]
    simp
  simp only [Component.fromNumberWithMarker, writeNonNegativeInteger, bind, Except.bind, h1, h2,
    if_false, Int.toNat_natCast, nonNegIntBytes_spec, List.append_nil]
  rw [← nonNegIntBytes_spec m.toNat, h3]; rfl

/-- With the marker it was made with, the number comes back and the test is true; with any other
marker the test is false and reading raises RuntimeError. -/
theorem C15_marker_roundtrip (n : Nat) (hn : n < 2 ^ 64) (m : UInt8) :
    ∃ c, Component.fromNumberWithMarker n m = .ok c ∧
      c.toNumberWithMarker m = .ok n ∧ c.hasMarker m = true ∧
      ∀ m', m' ≠ m → c.toNumberWithMarker m' = .error .runtime ∧ c.hasMarker m' = false := by
  refine ⟨_, fromNumberWithMarker_eq n m, ?_, ?_, ?_⟩
  · simp [Component.toNumberWithMarker, accumulate_nonNeg n hn]
  · simp [Component.hasMarker]
  · intro m' hm
    simp [Component.toNumberWithMarker, Component.hasMarker, Ne.symm hm]

/-- The five conventions: each `fromX` gives back its number through `toX`, is recognized by `isX`,
and by none of the other four. -/
theorem C15_segment (n : Nat) (hn : n < 2 ^ 64) : ∃ c, Component.fromSegment n = .ok c ∧
    c.toSegment = .ok n ∧ c.isSegment = true ∧ c.isSegmentOffset = false ∧ c.isVersion = false ∧
    c.isTimestamp = false ∧ c.isSequenceNumber = false ∧ c.toVersion = .error .runtime ∧
    c.toSegmentOffset = .error .runtime ∧ c.toTimestamp = .error .runtime ∧
    c.toSequenceNumber = .error .runtime := by
  obtain ⟨c, h1, h2, h3, h4⟩ := C15_marker_roundtrip n hn 0x00
  exact ⟨c, h1, h2, h3, (h4 _ (by decide)).2, (h4 _ (by decide)).2, (h4 _ (by decide)).2,
    (h4 _ (by decide)).2, (h4 _ (by decide)).1, (h4 _ (by decide)).1, (h4 _ (by decide)).1,
    (h4 _ (by decide)).1⟩
theorem C15_segmentOffset (n : Nat) (hn : n < 2 ^ 64) : ∃ c, Component.fromSegmentOffset n = .ok c ∧
    c.toSegmentOffset = .ok n ∧ c.isSegment = false ∧ c.isSegmentOffset = true ∧
    c.isVersion = false ∧ c.isTimestamp = false ∧ c.isSequenceNumber = false ∧
    c.toSegment = .error .runtime ∧ c.toVersion = .error .runtime ∧
    c.toTimestamp = .error .runtime ∧ c.toSequenceNumber = .error .runtime := by
  obtain ⟨c, h1, h2, h3, h4⟩ := C15_marker_roundtrip n hn 0xFB
  exact ⟨c, h1, h2, (h4 _ (by decide)).2, h3, (h4 _ (by decide)).2, (h4 _ (by decide)).2,
    (h4 _ (by decide)).2, (h4 _ (by decide)).1, (h4 _ (by decide)).1, (h4 _ (by decide)).1,
    (h4 _ (by decide)).1⟩
theorem C15_version (n : Nat) (hn : n < 2 ^ 64) : ∃ c, Component.fromVersion n = .ok c ∧
    c.toVersion = .ok n ∧ c.isSegment = false ∧ c.isSegmentOffset = false ∧
    c.isVersion = true ∧ c.isTimestamp = false ∧ c.isSequenceNumber = false ∧
    c.toSegment = .error .runtime ∧ c.toSegmentOffset = .error .runtime ∧
    c.toTimestamp = .error .runtime ∧ c.toSequenceNumber = .error .runtime := by
  obtain ⟨c, h1, h2, h3, h4⟩ := C15_marker_roundtrip n hn 0xFD
  exact ⟨c, h1, h2, (h4 _ (by decide)).2, (h4 _ (by decide)).2, h3, (h4 _ (by decide)).2,
    (h4 _ (by decide)).2, (h4 _ (by decide)).1, (h4 _ (by decide)).1, (h4 _ (by decide)).1,
    (h4 _ (by decide)).1⟩
theorem C15_timestamp (n : Nat) (hn : n < 2 ^ 64) : ∃ c, Component.fromTimestamp n = .ok c ∧
    c.toTimestamp = .ok n ∧ c.isSegment = false ∧ c.isSegmentOffset = false ∧
    c.isVersion = false ∧ c.isTimestamp = true ∧ c.isSequenceNumber = false ∧
    c.toSegment = .error .runtime ∧ c.toSegmentOffset = .error .runtime ∧
    c.toVersion = .error .runtime ∧ c.toSequenceNumber = .error .runtime := by
  obtain ⟨c, h1, h2, h3, h4⟩ := C15_marker_roundtrip n hn 0xFC
  exact ⟨c, h1, h2, (h4 _ (by decide)).2, (h4 _ (by decide)).2, (h4 _ (by decide)).2, h3,
    (h4 _ (by decide)).2, (h4 _ (by decide)).1, (h4 _ (by decide)).1, (h4 _ (by decide)).1,
    (h4 _ (by decide)).1⟩
theorem C15_sequenceNumber (n : Nat) (hn : n < 2 ^ 64) :
    ∃ c, Component.fromSequenceNumber n = .ok c ∧
    c.toSequenceNumber = .ok n ∧ c.isSegment = false ∧ c.isSegmentOffset = false ∧
    c.isVersion = false ∧ c.isTimestamp = false ∧ c.isSequenceNumber = true ∧
    c.toSegment = .error .runtime ∧ c.toSegmentOffset = .error .runtime ∧
    c.toVersion = .error .runtime ∧ c.toTimestamp = .error .runtime := by
  obtain ⟨c, h1, h2, h3, h4⟩ := C15_marker_roundtrip n hn 0xFE
  exact ⟨c, h1, h2, (h4 _ (by decide)).2, (h4 _ (by decide)).2, (h4 _ (by decide)).2,
    (h4 _ (by decide)).2, h3, (h4 _ (by decide)).1, (h4 _ (by decide)).1, (h4 _ (by decide)).1,
    (h4 _ (by decide)).1⟩

/-- `fromNumber` / `toNumber`, for every component type. -/
theorem C15_number (n : Nat) (hn : n < 2 ^ 64) (t : CType) :
    ∃ c, Component.fromNumber n t = .ok c ∧ c.type = t ∧ c.toNumber = n := by
  have h1 : ¬ ((n : Int) < 0) := by omega
  refine ⟨⟨t, Spec.nonNeg n⟩, ?_, rfl, ?_⟩
  · simp only [Component.fromNumber, writeNonNegativeInteger, bind, Except.bind, h1, if_false,
      Int.toNat_natCast, nonNegIntBytes_spec, List.append_nil]; rfl
  · exact accumulate_nonNeg n hn

/-- A negative number is refused with ValueError. -/
theorem C15_negative_refused (n : Int) (hn : n < 0) (m : UInt8) (t : CType) :
    Component.fromNumberWithMarker n m = .error .value ∧ Component.fromNumber n t = .error .value := by
  simp [Component.fromNumberWithMarker, Component.fromNumber, writeNonNegativeInteger, hn, bind,
    Except.bind]

example : Component.fromSegment 300 = .ok ⟨.generic, [0, 1, 44]⟩ := by decide

/-! ## C16 sub-names -/

/-- `getSubName(i, k)` is the list slice `[i : i + k]`, for a start from the front, ... -/
theorem C16_subName (n : Name) (s : Nat) (k : Int) :
    getSubName n s (some k) = .ok ((n.drop s).take k.toNat) := getSubName_nonneg n s k

/-- ... and for a start from the end that is in range.  Missing for the full property: a start further
from the end than the name is long (see `C16_subName_out_of_range`). -/
theorem C16_subName_negative_partial (n : Name) (s : Nat) (hs : s ≤ n.length) (h0 : 0 < s) (k : Int) :
    getSubName n (-(s : Int)) (some k) = .ok ((n.drop (n.length - s)).take k.toNat) := by
  rw [← getSubName_nonneg]
  unfold getSubName
  have h1 : (-(s : Int) < 0) := by omega
  have h2 : ¬ (((n.length - s : Nat) : Int) < 0) := by omega
  simp only [h1, h2, if_true, if_false]
  have h3 : (n.length : Int) - - -(s : Int) = ((n.length - s : Nat) : Int) := by omega
  rw [h3]

/-- With no count: all remaining components, as `l[i:]`. -/
theorem C16_subName_rest (n : Name) (s : Nat) : getSubName n s none = .ok (n.drop s) := by
  have h1 : ¬ ((s : Int) < 0) := by omega
  have : getSubName n s none = getSubName n s (some ((n.length : Int) - s)) := by
    unfold getSubName; simp only [h1, if_false]
  rw [this, getSubName_nonneg]
  congr 1
  rw [List.take_of_length_le]
  simp only [List.length_drop]; omega

/-- Out of range from the end, the code reads components with negative indexes and so repeats
components (name.py:765-775), where a list slice would be clipped. -/
theorem C16_subName_out_of_range :
    getSubName [⟨.generic, [1]⟩, ⟨.generic, [2]⟩] (-3) none
      = .ok [⟨.generic, [2]⟩, ⟨.generic, [1]⟩, ⟨.generic, [2]⟩] ∧
    getSubName [⟨.generic, [1]⟩] (-3) none = .error .index := by decide

/-- `getPrefix(k)` is `l[:k]` for every int `k`, also negative and out of range. -/
theorem C16_prefix (n : Name) (k : Int) : getPrefix n k = .ok (pySlice n 0 k) := by
  unfold getPrefix
  have h0 := fun j => getSubName_nonneg n 0 j
  have e : ((0 : Nat) : Int) = 0 := rfl
  rw [e] at h0
  unfold pySlice
  split
  · next hk =>
    rw [h0]
    simp only [hk, if_true, List.drop_zero, Int.lt_irrefl, if_false]
    congr 1
    have : (min (0 : Int) n.length).toNat = 0 := by omega
    rw [this]
    rw [List.drop_zero]
    congr 1; omega
  · next hk =>
    rw [h0]
    simp only [hk, List.drop_zero, Int.lt_irrefl, if_false]
    congr 1
    have : (min (0 : Int) n.length).toNat = 0 := by omega
    rw [this, List.drop_zero, List.take_eq_take_iff]; omega

/-- Slicing `name[a:b]` is the list slice for all ints. -/
theorem C16_slice (n : Name) (a b : Int) :
    getSlice? n (some a) (some b) = .ok (pySlice n a b) := by
  unfold getSlice? pySlice
  simp only
  obtain ⟨s, hs⟩ : ∃ s : Nat, (if a ≥ 0 then min a (n.length : Int) else max (n.length + a) 0) = s :=
    ⟨(if a ≥ 0 then min a (n.length : Int) else max (n.length + a) 0).toNat, by split <;> omega⟩
  obtain ⟨e, he⟩ : ∃ e : Nat, (if b ≥ 0 then min b (n.length : Int) else max (n.length + b) 0) = e :=
    ⟨(if b ≥ 0 then min b (n.length : Int) else max (n.length + b) 0).toNat, by split <;> omega⟩
  have hs' : (if a < 0 then max (n.length + a) 0 else min a (n.length : Int)).toNat = s := by
    split at hs <;> split <;> omega
  have he' : (if b < 0 then max (n.length + b) 0 else min b (n.length : Int)).toNat = e := by
    split at he <;> split <;> omega
  rw [hs, he, hs', he', getSubName_nonneg, List.drop_take]
  congr 2; omega

theorem C16_slice_defaults (n : Name) (a b : Int) :
    getSlice? n none (some b) = .ok (pySlice n 0 b) ∧
    getSlice? n (some a) none = .ok (pySlice n a n.length) := by
  have h1 := C16_slice n 0 b
  have h2 := C16_slice n a n.length
  unfold getSlice? at *
  constructor
  · rw [← h1]; simp only [ge_iff_le, Int.le_refl, if_true]
    rw [show min (0 : Int) n.length = 0 by omega]
  · rw [← h2]; simp

/-- A prefix joined with the remaining sub-name is the original name. -/
theorem C16_prefix_append_rest (n : Name) (k : Nat) :
    ∃ p r, getPrefix n k = .ok p ∧ getSubName n k none = .ok r ∧ p ++ r = n := by
  refine ⟨_, _, ?_, C16_subName_rest n k, List.take_append_drop k n⟩
  unfold getPrefix
  rw [if_neg (by omega)]
  simpa using getSubName_nonneg n 0 k

example : getPrefix [⟨.generic, [1]⟩, ⟨.generic, [2]⟩, ⟨.generic, [3]⟩] (-1)
    = .ok [⟨.generic, [1]⟩, ⟨.generic, [2]⟩] := by decide

/-! ## C17 hashes -/

/-- An operation on a name object that can change it or its cached hash. -/
inductive NameOp where
  | append (cs : Name)   -- append(component) and append(name)
  | clear                -- clear(), and the first step of set() and wireDecode()
  | hash                 -- hash(name)

def NameOp.apply (hb : Bytes → Int) (red : Int → Int) (n : NameObj) : NameOp → NameObj
  | .append cs => n.append cs
  | .clear => n.clear
  | .hash => (n.getHash hb red).2

/-- The cache is right whenever it would be used. -/
def HashInv (hb : Bytes → Int) (red : Int → Int) (n : NameObj) : Prop :=
  n.hashCodeChangeCount ≤ n.changeCount ∧
  (n.hashCodeChangeCount = n.changeCount → ∀ h, n.hash = some h → h = computeHash hb red n.components)

theorem hashInv_apply {hb red} {n : NameObj} (h : HashInv hb red n) (op : NameOp) :
    HashInv hb red (op.apply hb red n) := by
  obtain ⟨h1, h2⟩ := h
  cases op with
  | append cs => exact ⟨by simp [NameOp.apply, NameObj.append]; omega,
      by simp [NameOp.apply, NameObj.append]; intro e; omega⟩
  | clear => exact ⟨by simp [NameOp.apply, NameObj.clear]; omega,
      by simp [NameOp.apply, NameObj.clear]; intro e; omega⟩
  | hash =>
    simp only [NameOp.apply, NameObj.getHash]
    by_cases hc : n.hashCodeChangeCount = n.changeCount
    · simp only [hc, ne_eq, not_true, if_false]
      cases hh : n.hash with
      | some x => exact ⟨h1, h2⟩
      | none =>
        refine ⟨by simp, ?_⟩
        intro _ x hx
        simp at hx; exact hx.symm
    · simp only [hc, ne_eq, not_false_eq_true, if_true]
      refine ⟨Nat.le_refl _, ?_⟩
      intro _ x hx
      simp at hx; exact hx.symm

/-- After any history, the hash returned depends only on the current components. -/
theorem C17_hash_of_components (hb : Bytes → Int) (red : Int → Int) (start : Name)
    (ops : List NameOp) :
    let n := ops.foldl (NameOp.apply hb red) (NameObj.new start)
    (n.getHash hb red).1 = computeHash hb red n.components := by
  intro n
  have hinv : HashInv hb red n := by
    have : ∀ (ops : List NameOp) (m : NameObj), HashInv hb red m →
        HashInv hb red (ops.foldl (NameOp.apply hb red) m) := by
      intro ops
      induction ops with
      | nil => intro m h; exact h
      | cons op ops ih => intro m h; exact ih _ (hashInv_apply h op)
    apply this
    exact ⟨by simp [NameObj.new], by simp [NameObj.new]⟩
  obtain ⟨h1, h2⟩ := hinv
  unfold NameObj.getHash
  by_cases hc : n.hashCodeChangeCount = n.changeCount
  · simp only [hc, ne_eq, not_true, if_false]
    cases hh : n.hash with
    | some x => exact h2 hc x hh
    | none => rfl
  · simp only [hc, ne_eq, not_false_eq_true, if_true]

/-- Names that compare equal have equal hashes, whatever their histories. -/
theorem C17_equal_names_equal_hashes (hb : Bytes → Int) (red : Int → Int) (s1 s2 : Name)
    (ops1 ops2 : List NameOp) :
    let n1 := ops1.foldl (NameOp.apply hb red) (NameObj.new s1)
    let n2 := ops2.foldl (NameOp.apply hb red) (NameObj.new s2)
    n1.components.equals n2.components = true →
    (n1.getHash hb red).1 = (n2.getHash hb red).1 := by
  intro n1 n2 h
  rw [C17_hash_of_components, C17_hash_of_components, (name_equals_iff _ _).mp h]

example : (([.append [⟨.generic, [1]⟩], .hash, .clear, .append [⟨.generic, [2]⟩]] : List NameOp).foldl
      (NameOp.apply (fun b => b.length) id) (NameObj.new [])).components.equals
    (NameObj.new [⟨.generic, [2]⟩]).components = true := by decide

end PyNDN
