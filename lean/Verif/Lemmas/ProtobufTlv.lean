import Verif.Model.ProtobufTlv
import Verif.Spec.ProtobufTlv
import Verif.Lemmas.Fields
/-
Lemmas for C81: ProtobufTlv.
-/
namespace PyNDN.Protobuf
open Spec (flat opt tlv Scalar)
open Spec.Protobuf

theorem utf8Encode_eq (c : Nat) : utf8Encode c = Spec.utf8 c := rfl

theorem flatMap_utf8 (s : List Nat) : s.flatMap utf8Encode = s.flatMap Spec.utf8 := rfl

theorem writeInt {n : Int} (h : 0 ≤ n) (t : Nat) (out : Bytes) :
    writeNonNegativeIntegerTlv t n out = .ok (tlv t (Spec.nonNeg n.toNat) ++ out) := by
  obtain ⟨m, rfl⟩ := Int.eq_ofNat_of_zero_le h
  exact writeNonNegativeIntegerTlv_nat t m out

theorem writeNested (t : Nat) (v out : Bytes) :
    writeTypeAndLength t ((v ++ out).length - out.length) (v ++ out) = tlv t v ++ out := by
  rw [List.length_append, Nat.add_sub_cancel]
  exact writeTypeAndLength_tlv t v out

mutual
theorem encodeValue_spec (S : Schema) (f : Field) (v : Value) (h : FitsValue S f v) (out : Bytes) :
    encodeValue S f v out = .ok (flat (valueTlvs S f v) ++ out) := by
  match v with
  | .int n =>
    simp only [FitsValue] at h
    rcases h with ⟨ht, h0, _⟩ | ⟨ht, h0, _⟩ | ⟨values, ht, _, h0, _⟩
    · rw [encodeValue.eq_def]; simp [ht, valueTlvs, flat_cons, writeInt h0]
    · rw [encodeValue.eq_def]; simp [ht, valueTlvs, flat_cons, writeInt h0]
    · have : ¬ n < 0 := by omega
      rw [encodeValue.eq_def]; simp [ht, valueTlvs, flat_cons, writeInt h0, this]
  | .bytes b =>
    simp only [FitsValue] at h
    rw [encodeValue.eq_def]; simp [h, valueTlvs, flat_cons, writeBlobTlv_some]
  | .text s =>
    simp only [FitsValue] at h
    rw [encodeValue.eq_def]; simp [h.1, valueTlvs, flat_cons, writeBlobTlv_some, flatMap_utf8]
  | .bool b =>
    simp only [FitsValue] at h
    cases b
    · rw [encodeValue.eq_def]; simp [h, valueTlvs, opt]
    · have := writeTypeAndLength_tlv f.number [] out
      simp only [List.length_nil, List.nil_append] at this
      rw [encodeValue.eq_def]; simp [h, valueTlvs, opt, flat_cons, this]
  | .msg fields =>
    simp only [FitsValue] at h
    split at h
    · next k hk =>
      rw [encodeValue.eq_def]
      simp only [hk, valueTlvs, flat_cons, flat_nil, List.append_nil]
      rw [encodeMessageValue_spec S (S k) fields h out]
      simp only [bind, Except.bind, pure, Except.pure]
      rw [writeNested]
    · exact h.elim

theorem encodeValues_spec (S : Schema) (f : Field) (vs : List Value) (h : FitsValues S f vs) (out : Bytes) :
    encodeValues S f vs out = .ok (flat (valuesTlvs S f vs) ++ out) := by
  match vs with
  | [] => simp [encodeValues, valuesTlvs]
  | v :: vs =>
    simp only [FitsValues] at h
    simp only [encodeValues, valuesTlvs, encodeValues_spec S f vs h.2 out, bind, Except.bind, flat_append]
    rw [encodeValue_spec S f v h.1, List.append_assoc]

theorem encodeMessageValue_spec (S : Schema) (fs : List Field) (fields : List (List Value)) (h : Fits S fs fields) (out : Bytes) :
    encodeMessageValue S fs fields out = .ok (flat (messageTlvs S fs fields) ++ out) := by
  match fs, fields with
  | [], [] => simp [encodeMessageValue, messageTlvs]
  | [], _ :: _ => simp [Fits] at h
  | _ :: _, [] => simp [Fits] at h
  | f :: fs, vs :: fields =>
    simp only [Fits] at h
    simp only [encodeMessageValue, messageTlvs, encodeMessageValue_spec S fs fields h.2.2 out, bind, Except.bind, flat_append]
    rw [encodeValues_spec S f vs h.2.1, List.append_assoc]
end

mutual
theorem initializedValue_of (S : Schema) (f : Field) (v : Value) (h : FitsValue S f v) : initializedValue S f v = true := by
  match v with
  | .msg fields =>
    simp only [FitsValue] at h
    split at h
    · next k hk =>
      rw [initializedValue.eq_def]
      simp only [hk]
      exact initialized_of S (S k) fields h
    · exact h.elim
  | .int _ => rw [initializedValue.eq_def]; cases f.type <;> rfl
  | .bytes _ => rw [initializedValue.eq_def]; cases f.type <;> rfl
  | .text _ => rw [initializedValue.eq_def]; cases f.type <;> rfl
  | .bool _ => rw [initializedValue.eq_def]; cases f.type <;> rfl

theorem initializedValues_of (S : Schema) (f : Field) (vs : List Value) (h : FitsValues S f vs) :
    initializedValues S f vs = true := by
  match vs with
  | [] => simp [initializedValues]
  | v :: vs =>
    simp only [FitsValues] at h
    simp [initializedValues, initializedValue_of S f v h.1, initializedValues_of S f vs h.2]

theorem initialized_of (S : Schema) (fs : List Field) (fields : List (List Value)) (h : Fits S fs fields) :
    initialized S fs fields = true := by
  match fs, fields with
  | [], _ => simp [initialized]
  | _ :: _, [] => simp [initialized]
  | f :: fs, vs :: fields =>
    simp only [Fits] at h
    have h1 : (f.label != .required || !vs.isEmpty) = true := by
      cases hl : f.label
      · rfl
      · have := h.1
        rw [hl] at this
        simp only [Count] at this
        cases vs with
        | nil => simp at this
        | cons _ _ => rfl
      · rfl
    simp [initialized, initializedValues_of S f vs h.2.1, initialized_of S fs fields h.2.2, h1]
end

/-- The TLVs of a value have the number of its field. -/
theorem valueTlvs_number (S : Schema) (f : Field) (v : Value) : ∀ p ∈ valueTlvs S f v, p.1 = f.number := by
  intro p hp
  cases v with
  | int n => simp [valueTlvs] at hp; simp [hp]
  | bytes b => simp [valueTlvs] at hp; simp [hp]
  | text s => simp [valueTlvs] at hp; simp [hp]
  | bool b => cases b <;> simp [valueTlvs, opt] at hp; simp [hp]
  | msg fields =>
    simp only [valueTlvs] at hp
    split at hp
    · simp at hp; simp [hp]
    · simp at hp

theorem valuesTlvs_number (S : Schema) (f : Field) (vs : List Value) : ∀ p ∈ valuesTlvs S f vs, p.1 = f.number := by
  induction vs with
  | nil => intro p hp; simp [valuesTlvs] at hp
  | cons v vs ih =>
    intro p hp
    simp only [valuesTlvs, List.mem_append] at hp
    rcases hp with hp | hp
    · exact valueTlvs_number S f v p hp
    · exact ih p hp

theorem messageTlvs_number (S : Schema) (fs : List Field) (fields : List (List Value)) :
    ∀ p ∈ messageTlvs S fs fields, p.1 ∈ fs.map fun f => f.number := by
  induction fs generalizing fields with
  | nil => intro p hp; simp [messageTlvs] at hp
  | cons f fs ih =>
    intro p hp
    cases fields with
    | nil => simp [messageTlvs] at hp
    | cons vs fields =>
      simp only [messageTlvs, List.mem_append] at hp
      rcases hp with hp | hp
      · simp [valuesTlvs_number S f vs p hp]
      · exact List.mem_cons_of_mem _ (ih fields p hp)

/-- Every field of a short enough sequence can be represented. -/
theorem fieldsOk_of {l : List (Nat × Bytes)} (ht : ∀ p ∈ l, p.1 < 2 ^ 64) (hl : (flat l).length < 2 ^ 64) : FieldsOk l := by
  induction l with
  | nil => exact FieldsOk.nil
  | cons p l ih =>
    rw [flat_cons, List.length_append, tlv_length] at hl
    exact FieldsOk.cons (ht p (by simp)) (by omega) (ih (fun q hq => ht q (List.mem_cons_of_mem _ hq)) (by omega))

theorem tlv_length_ge (t : Nat) (v : Bytes) : v.length + 2 ≤ (tlv t v).length := by
  rw [tlv_length]
  have h1 := varNumberBytes_length_pos t
  have h2 := varNumberBytes_length_pos v.length
  omega

theorem readMessage_fresh (S : Schema) (fs gs : List Field) (fields : List (List Value)) :
    readMessage S fs (fresh gs) fields = readMessage S fs [] fields := by
  induction fs generalizing gs fields with
  | nil => simp [readMessage]
  | cons f fs ih =>
    cases fields with
    | nil => simp [readMessage]
    | cons vs fields =>
      cases gs with
      | nil => simp [fresh]
      | cons g gs =>
        have := ih gs fields
        simp only [readMessage, fresh, List.map_cons, List.headD_cons, List.tail_cons, List.headD_nil, List.tail_nil] at this ⊢
        rw [this]

theorem readMessage_child (S : Schema) (fs : List Field) (old : List Value) (fields : List (List Value)) :
    readMessage S fs (childOf fs old) fields = readMessage S fs (present old) fields := by
  cases old with
  | nil => exact readMessage_fresh S fs fs fields
  | cons v old =>
    cases v with
    | msg g => rfl
    | _ => exact readMessage_fresh S fs fs fields

/-- What the induction gives for a message. -/
def Ok (S : Schema) (fs : List Field) (fields : List (List Value)) : Prop :=
  ∀ olds fuel inp off e, (flat (messageTlvs S fs fields)).length ≤ fuel → At inp off e (messageTlvs S fs fields) →
    ∃ off', (decodeFields S (decodeMessageValue S fuel) fs olds e).run inp off = .ok (readMessage S fs olds fields, off') ∧
      At inp off' e []

/-- Reading a nested message. -/
theorem nested_ok {S : Schema} (hS : SchemaOk S) {k : Nat} {fields olds : List (List Value)} (ih : Ok S (S k) fields) {t fuel : Nat}
    {inp : Bytes} {off e : Nat} {l : List (Nat × Bytes)}
    (hf : (flat (messageTlvs S (S k) fields)).length + 2 ≤ fuel)
    (h : At inp off e ((t, flat (messageTlvs S (S k) fields)) :: l)) :
    ∃ inner off1 off2, (readNestedTlvsStart t).run inp off = .ok (inner, off1) ∧
      (decodeMessageValue S fuel (S k) olds inner).run inp off1 = .ok (readMessage S (S k) olds fields, off2) ∧
      (finishNestedTlvs inner).run inp off2 = .ok ((), inner) ∧ At inp inner e l := by
  have hok : FieldsOk (messageTlvs S (S k) fields) := by
    refine fieldsOk_of (fun p hp => ?_) h.bound.2
    obtain ⟨f, hf, hn⟩ := List.mem_map.mp (messageTlvs_number S (S k) fields p hp)
    rw [← hn]
    exact (hS k).2 f hf
  obtain ⟨inner, off1, h1, h2, h3⟩ := readNestedTlvsStart_At h hok
  obtain ⟨fuel, rfl⟩ : ∃ n, fuel = n + 1 := ⟨fuel - 1, by omega⟩
  obtain ⟨off2, h4, h5⟩ := ih olds fuel inp off1 inner (by omega) h2
  exact ⟨inner, off1, off2, h1, h4, finishNestedTlvs_At h5, h3⟩

/-- Reading one value that is not a message and is written. -/
theorem scalar_ok {S : Schema} {f : Field} {v : Value} (hv : FitsValue S f v) (hm : ∀ k, f.type ≠ .message k)
    {inp : Bytes} {off e : Nat} {l : List (Nat × Bytes)} (hl : ∀ p ∈ l, p.1 ≠ f.number ∨ v ≠ .bool false)
    (h : At inp off e (valueTlvs S f v ++ l)) :
    ∃ off', (decodeFieldValue f e).run inp off =
        .ok ((match v with | .text s => .text ((s.flatMap Spec.utf8).map fun b => b.toNat) | v => v), off') ∧ At inp off' e l := by
  match v with
  | .int n =>
    simp only [FitsValue] at hv
    have h : At inp off e ((f.number, Spec.nonNeg n.toNat) :: l) := by simpa [valueTlvs] using h
    have h0 : 0 ≤ n ∧ n < 2 ^ 64 := by
      rcases hv with ⟨_, a, b⟩ | ⟨_, a, b⟩ | ⟨_, _, _, a, b⟩ <;> exact ⟨a, by omega⟩
    obtain ⟨off', h1, h2⟩ := readNonNegativeIntegerTlv_At (n := n.toNat) (by omega) h
    have hn : ((n.toNat : Nat) : Int) = n := Int.toNat_of_nonneg h0.1
    refine ⟨off', ?_, h2⟩
    rcases hv with ⟨ht, _, hb⟩ | ⟨ht, _⟩ | ⟨values, ht, hb, _⟩
    · simp only [decodeFieldValue, ht]
      rw [Dec.bind_ok h1]
      have : n.toNat < 2 ^ 32 := by omega
      simp [this, hn]
    · simp only [decodeFieldValue, ht]
      rw [Dec.bind_ok h1]
      simp [hn]
    · simp only [decodeFieldValue, ht]
      rw [Dec.bind_ok h1]
      simp [hn, hb]
  | .bytes b =>
    simp only [FitsValue] at hv
    have h : At inp off e ((f.number, b) :: l) := by simpa [valueTlvs] using h
    obtain ⟨off', h1, h2⟩ := readBlobTlv_At h
    refine ⟨off', ?_, h2⟩
    simp only [decodeFieldValue, hv]
    rw [Dec.bind_ok h1]
    rfl
  | .text s =>
    simp only [FitsValue] at hv
    have h : At inp off e ((f.number, s.flatMap Spec.utf8) :: l) := by simpa [valueTlvs] using h
    obtain ⟨off', h1, h2⟩ := readBlobTlv_At h
    refine ⟨off', ?_, h2⟩
    simp only [decodeFieldValue, hv.1]
    rw [Dec.bind_ok h1]
    rfl
  | .bool b =>
    simp only [FitsValue] at hv
    have h : At inp off e (opt f.number (if b then some [] else none) ++ l) := by simpa [valueTlvs] using h
    cases b with
    | false =>
      obtain ⟨off', h1, h2⟩ := readBooleanTlv_At h fun p hp => (hl p hp).resolve_right (by simp)
      refine ⟨off', ?_, h2⟩
      simp only [decodeFieldValue, hv]
      rw [Dec.bind_ok h1]
      rfl
    | true =>
      have h' : At inp off e ((f.number, []) :: l) := h
      obtain ⟨rest, hd⟩ := h'.head
      refine ⟨_, ?_, h'.next⟩
      simp only [decodeFieldValue, hv]
      have hr : (readBooleanTlv f.number e).run inp off = .ok (true, off + (tlv f.number []).length) := by
        unfold readBooleanTlv
        rw [Dec.bind_ok (peekType_present h')]
        simp only [if_true]
        rw [Dec.bind_ok (readTypeAndLength_tlv h'.bound.1 h'.bound.2 hd), Dec.bind_ok (advance_run _ _ _)]
        simp only [tlv_value_end, Dec.pure_run]
      rw [Dec.bind_ok hr]
      rfl
  | .msg fields =>
    rw [FitsValue.eq_def] at hv
    cases ht : f.type with
    | message k => exact absurd ht (hm k)
    | _ => simp [ht] at hv

/-- The reader of one element of a repeated field. -/
def itemReader (S : Schema) (fuel : Nat) (f : Field) (e : Nat) : Dec Value :=
  match f.type with
  | .message k => do
    let innerEndOffset ← readNestedTlvsStart f.number
    let fields ← decodeMessageValue S fuel (S k) (fresh (S k)) innerEndOffset
    finishNestedTlvs innerEndOffset
    return .msg fields
  | _ => decodeFieldValue f e

theorem item_ok {S : Schema} (hS : SchemaOk S) {f : Field} {v : Value} (hv : FitsValue S f v) (hb : v ≠ .bool false)
    (ih : ∀ k fields, f.type = .message k → v = .msg fields → Ok S (S k) fields) {fuel : Nat}
    {inp : Bytes} {off e : Nat} {l : List (Nat × Bytes)} (hf : (flat (valueTlvs S f v)).length ≤ fuel)
    (h : At inp off e (valueTlvs S f v ++ l)) :
    ∃ off' w, (itemReader S fuel f e).run inp off = .ok (w, off') ∧ readItem S f v = [w] ∧ At inp off' e l := by
  by_cases hm : ∃ k, f.type = .message k
  · obtain ⟨k, hk⟩ := hm
    match v with
    | .msg fields =>
      simp only [valueTlvs, hk] at h hf
      have h : At inp off e ((f.number, flat (messageTlvs S (S k) fields)) :: l) := h
      rw [flat_cons, flat_nil, List.append_nil] at hf
      simp only at hf
      have h2 := tlv_length_ge f.number (flat (messageTlvs S (S k) fields))
      obtain ⟨inner, off1, off2, a, b, c, d⟩ := nested_ok hS (ih k fields hk rfl) (olds := fresh (S k)) (fuel := fuel)
        (by omega) h
      refine ⟨inner, .msg (readMessage S (S k) [] fields), ?_, ?_, d⟩
      · simp only [itemReader, hk]
        rw [Dec.bind_ok a, Dec.bind_ok b, Dec.bind_ok c, readMessage_fresh]
        rfl
      · simp only [readItem, hk]
    | .int n => simp [FitsValue, hk] at hv
    | .bytes b => simp [FitsValue, hk] at hv
    | .text s => simp [FitsValue, hk] at hv
    | .bool b => simp [FitsValue, hk] at hv
  · have hm' : ∀ k, f.type ≠ .message k := fun k hk => hm ⟨k, hk⟩
    obtain ⟨off', h1, h2⟩ := scalar_ok hv hm' (fun p hp => .inr hb) h
    have hr : itemReader S fuel f e = decodeFieldValue f e := by
      unfold itemReader
      split
      · next k hk => exact absurd hk (hm' k)
      · rfl
    rw [hr]
    refine ⟨off', _, h1, ?_, h2⟩
    match v with
    | .int n => simp [readItem]
    | .bytes b => simp [readItem]
    | .text s => simp [readItem]
    | .bool true => simp [readItem]
    | .bool false => exact absurd rfl hb
    | .msg fields =>
      rw [FitsValue.eq_def] at hv
      cases ht : f.type with
      | message k => exact absurd ht (hm' k)
      | _ => simp [ht] at hv

theorem valueTlvs_cons {S : Schema} {f : Field} {v : Value} (hv : FitsValue S f v) (hb : v ≠ .bool false) :
    ∃ x, valueTlvs S f v = [(f.number, x)] := by
  match v with
  | .int n => exact ⟨_, by rw [valueTlvs]⟩
  | .bytes b => exact ⟨_, by rw [valueTlvs]⟩
  | .text s => exact ⟨_, by rw [valueTlvs]⟩
  | .bool true => exact ⟨[], by rw [valueTlvs]; rfl⟩
  | .bool false => exact absurd rfl hb
  | .msg fields =>
    simp only [FitsValue] at hv
    split at hv
    · next k hk => exact ⟨flat (messageTlvs S (S k) fields), by rw [valueTlvs.eq_def]; simp only [hk]⟩
    · exact hv.elim

/-- The loop over a repeated field. -/
theorem loop_ok {S : Schema} (hS : SchemaOk S) {f : Field} {vs : List Value} (hv : FitsValues S f vs)
    (ih : ∀ k fields, f.type = .message k → .msg fields ∈ vs → Ok S (S k) fields) {fuel : Nat}
    {inp : Bytes} {e : Nat} {l : List (Nat × Bytes)} (hl : ∀ p ∈ l, p.1 ≠ f.number)
    (hf : (flat (valuesTlvs S f vs)).length ≤ fuel) :
    ∀ {off : Nat} (n : Nat) (acc : List Value), e ≤ off + n → At inp off e (valuesTlvs S f vs ++ l) →
    ∃ off', (repeatLoop (itemReader S fuel f e) f.number e n acc).run inp off = .ok (acc ++ readItems S f vs, off') ∧
      At inp off' e l := by
  induction vs with
  | nil =>
    intro off n acc hn h
    have h : At inp off e l := by simpa [valuesTlvs] using h
    refine ⟨off, ?_, h⟩
    cases n with
    | zero =>
      unfold repeatLoop
      rw [Dec.bind_ok (peekType_absent h hl)]
      simp [readItems]
    | succ n =>
      unfold repeatLoop
      rw [Dec.bind_ok (peekType_absent h hl)]
      simp [readItems]
  | cons v vs ihv =>
    intro off n acc hn h
    simp only [FitsValues] at hv
    simp only [valuesTlvs, List.append_assoc, flat_append, List.length_append] at h hf
    have ih' := @ihv hv.2 (fun k fields hk hm => ih k fields hk (List.mem_cons_of_mem _ hm)) (by omega)
    by_cases hb : v = .bool false
    · subst hb
      have h : At inp off e (valuesTlvs S f vs ++ l) := by simpa [valueTlvs, opt] using h
      obtain ⟨off', h1, h2⟩ := ih' n acc hn h
      refine ⟨off', ?_, h2⟩
      rw [h1]
      simp [readItems, readItem]
    · obtain ⟨x, hx⟩ := valueTlvs_cons hv.1 hb
      have hp : At inp off e ((f.number, x) :: (valuesTlvs S f vs ++ l)) := by rw [hx] at h; exact h
      obtain ⟨off', w, h1, h2, h3⟩ := item_ok hS hv.1 hb (fun k fields hk hm => ih k fields hk (by rw [hm]; simp))
        (fuel := fuel) (by omega) h
      have hlt := hp.lt
      obtain ⟨n, rfl⟩ : ∃ m, n = m + 1 := ⟨n - 1, by omega⟩
      have hge : off < off' := by
        have a := h3.stop
        have b := hp.next.stop
        have c := tlv_length_ge f.number x
        omega
      obtain ⟨off2, h4, h5⟩ := ih' n (acc ++ [w]) (by omega) h3
      refine ⟨off2, ?_, h5⟩
      unfold repeatLoop
      rw [Dec.bind_ok (peekType_present hp)]
      simp only [if_true]
      rw [Dec.bind_ok h1, h4]
      simp [readItems, h2]

/-- One field. -/
theorem field_ok {S : Schema} (hS : SchemaOk S) {f : Field} {vs : List Value} (hc : Count f.label vs.length)
    (hv : FitsValues S f vs) (ih : ∀ k fields, f.type = .message k → .msg fields ∈ vs → Ok S (S k) fields) {fuel : Nat}
    {inp : Bytes} {off e : Nat} {l : List (Nat × Bytes)} (hl : ∀ p ∈ l, p.1 ≠ f.number)
    (hf : (flat (valuesTlvs S f vs)).length ≤ fuel) (old : List Value) (h : At inp off e (valuesTlvs S f vs ++ l)) :
    ∃ off', (decodeField S (decodeMessageValue S fuel) f old e).run inp off = .ok (readField S f old vs, off') ∧
      At inp off' e l := by
  by_cases hr : f.label = .repeated
  · obtain ⟨off', h1, h2⟩ := loop_ok hS hv ih hl hf (off := off) (e - off) old (by omega) h
    refine ⟨off', ?_, h2⟩
    unfold decodeField
    have ho : f.label ≠ .optional := by rw [hr]; decide
    rw [if_neg ho, if_pos hr, Dec.bind_ok (getOffset_run _ _)]
    have : readField S f old vs = old ++ readItems S f vs := by
      cases vs with
      | nil => simp [readField, readItems]
      | cons v vs => simp [readField, readItems, hr]
    rw [this]
    exact h1
  · -- at most one value
    have hlen : vs.length ≤ 1 := by
      cases hlab : f.label
      · rw [hlab] at hc; exact hc
      · rw [hlab] at hc; exact Nat.le_of_eq hc
      · exact absurd hlab hr
    match vs with
    | [] =>
      have ho : f.label = .optional := by
        cases hlab : f.label
        · rfl
        · rw [hlab] at hc; cases hc
        · exact absurd hlab hr
      have h : At inp off e l := by simpa [valuesTlvs] using h
      refine ⟨off, ?_, h⟩
      unfold decodeField
      simp only [ho, if_true]
      rw [Dec.bind_ok (m := _) (peekType_absent h hl)]
      simp [readField]
    | [v] =>
      simp only [FitsValues, and_true] at hv
      have h : At inp off e (valueTlvs S f v ++ l) := by simpa [valuesTlvs] using h
      have hf : (flat (valueTlvs S f v)).length ≤ fuel := by simpa [valuesTlvs] using hf
      have hread : readField S f old [v] = readSingle S f old v := by simp [readField, hr]
      rw [hread]
      by_cases hob : f.label = .optional ∧ v = .bool false
      · obtain ⟨ho, rfl⟩ := hob
        have h : At inp off e l := by simpa [valueTlvs, opt] using h
        refine ⟨off, ?_, h⟩
        unfold decodeField
        simp only [ho, if_true]
        rw [Dec.bind_ok (m := _) (peekType_absent h hl)]
        simp [readSingle, ho]
      · -- the value is read
        have hstart : ∀ (m : Dec (List Value)) r, m.run inp off = r →
            (if f.label = Label.optional then (do
                let b ← peekType f.number e
                if (!b) = true then pure old else m)
              else m).run inp off = r := by
          intro m r hm
          by_cases ho : f.label = .optional
          · have hb : v ≠ .bool false := fun hb => hob ⟨ho, hb⟩
            obtain ⟨x, hx⟩ := valueTlvs_cons hv hb
            have hp : At inp off e ((f.number, x) :: l) := by rw [hx] at h; exact h
            rw [if_pos ho, Dec.bind_ok (peekType_present hp)]
            exact hm
          · rw [if_neg ho]
            exact hm
        by_cases hm : ∃ k, f.type = .message k
        · obtain ⟨k, hk⟩ := hm
          match v with
          | .msg fields =>
            simp only [valueTlvs, hk] at h hf
            have h : At inp off e ((f.number, flat (messageTlvs S (S k) fields)) :: l) := h
            rw [flat_cons, flat_nil, List.append_nil] at hf
            simp only at hf
            have h2 := tlv_length_ge f.number (flat (messageTlvs S (S k) fields))
            obtain ⟨inner, off1, off2, a, b, c, d⟩ := nested_ok hS (ih k fields hk (by simp)) (olds := childOf (S k) old)
              (fuel := fuel) (by omega) h
            refine ⟨inner, ?_, d⟩
            unfold decodeField
            apply hstart
            rw [if_neg hr]
            simp only [hk]
            rw [Dec.bind_ok a, Dec.bind_ok b, Dec.bind_ok c]
            rw [readSingle.eq_def]
            simp only [hk]
            rw [readMessage_child]
            split <;> rfl
          | .int n => simp [FitsValue, hk] at hv
          | .bytes b => simp [FitsValue, hk] at hv
          | .text s => simp [FitsValue, hk] at hv
          | .bool b => simp [FitsValue, hk] at hv
        · have hm' : ∀ k, f.type ≠ .message k := fun k hk => hm ⟨k, hk⟩
          obtain ⟨off', h1, h2⟩ := scalar_ok hv hm' (fun p hp => .inl (hl p hp)) h
          refine ⟨off', ?_, h2⟩
          unfold decodeField
          apply hstart
          rw [if_neg hr]
          simp only []
          rw [Dec.bind_ok h1]
          match v with
          | .int n => simp [readSingle]
          | .bytes b => simp [readSingle]
          | .text s => simp [readSingle]
          | .bool true => simp [readSingle]
          | .bool false =>
            have : f.label = .required := by
              cases hlab : f.label
              · exact absurd ⟨hlab, rfl⟩ hob
              · rfl
              · exact absurd hlab hr
            simp [readSingle, this]
          | .msg fields =>
            rw [FitsValue.eq_def] at hv
            cases ht : f.type with
            | message k => exact absurd ht (hm' k)
            | _ => simp [ht] at hv
    | _ :: _ :: _ => simp at hlen

mutual
theorem value_Ok {S : Schema} (hS : SchemaOk S) (f : Field) (v : Value) (hv : FitsValue S f v) :
    ∀ k fields, f.type = .message k → v = .msg fields → Ok S (S k) fields := by
  intro k fields hk hm
  match v with
  | .msg fields' =>
    rw [FitsValue.eq_def] at hv
    simp only [hk] at hv
    have := message_Ok hS (S k) fields' (hS k).1 hv
    cases hm
    exact this
  | .int n => cases hm
  | .bytes b => cases hm
  | .text s => cases hm
  | .bool b => cases hm

theorem values_Ok {S : Schema} (hS : SchemaOk S) (f : Field) (vs : List Value) (hv : FitsValues S f vs) :
    ∀ k fields, f.type = .message k → .msg fields ∈ vs → Ok S (S k) fields := by
  intro k fields hk hm
  match vs with
  | [] => cases hm
  | v :: vs =>
    simp only [FitsValues] at hv
    rcases List.mem_cons.mp hm with hm | hm
    · exact value_Ok hS f v hv.1 k fields hk hm.symm
    · exact values_Ok hS f vs hv.2 k fields hk hm

theorem message_Ok {S : Schema} (hS : SchemaOk S) (fs : List Field) (fields : List (List Value))
    (hn : (fs.map fun f => f.number).Nodup) (h : Fits S fs fields) : Ok S fs fields := by
  match fs, fields with
  | [], [] =>
    intro olds fuel inp off e hf hat
    refine ⟨off, ?_, by simpa [messageTlvs] using hat⟩
    simp [decodeFields, readMessage]
  | [], _ :: _ => simp [Fits] at h
  | _ :: _, [] => simp [Fits] at h
  | f :: fs, vs :: fields =>
    simp only [Fits] at h
    simp only [List.map_cons, List.nodup_cons] at hn
    have ih := message_Ok hS fs fields hn.2 h.2.2
    have ihv := values_Ok hS f vs h.2.1
    intro olds fuel inp off e hf hat
    simp only [messageTlvs, flat_append, List.length_append] at hf hat
    obtain ⟨off1, h1, h2⟩ := field_ok hS h.1 h.2.1 ihv (fuel := fuel) (l := messageTlvs S fs fields) (fun p hp he => by
      have := messageTlvs_number S fs fields p hp
      rw [he] at this
      exact hn.1 this) (by omega) (olds.headD []) hat
    obtain ⟨off2, h3, h4⟩ := ih olds.tail fuel inp off1 e (by omega) h2
    refine ⟨off2, ?_, h4⟩
    unfold decodeFields
    rw [Dec.bind_ok h1, Dec.bind_ok h3]
    simp [readMessage]
end

end PyNDN.Protobuf
