import Verif.Lemmas.ProtobufTlv
import Verif.Lemmas.Read
/-
C81: ProtobufTlv.
-/
namespace PyNDN.Protobuf
open Spec (flat opt tlv Scalar)
open Spec.Protobuf

/-- Every complete message is encoded as its TLVs in the order of the descriptor, for every descriptor. -/
theorem C81_encode (S : Schema) (k : Nat) (fields : List (List Value)) (h : Fits S (S k) fields) :
    encode S k fields = .ok (flat (messageTlvs S (S k) fields)) := by
  unfold encode
  rw [initialized_of S (S k) fields h]
  simp [encodeMessageValue_spec S (S k) fields h]

theorem initializedValues_false {S : Schema} {f : Field} {k : Nat} {sub : List (List Value)} (hk : f.type = .message k)
    {vs : List Value} (hm : .msg sub ∈ vs) (h : initialized S (S k) sub = false) : initializedValues S f vs = false := by
  induction vs with
  | nil => cases hm
  | cons v vs ih =>
    rw [initializedValues]
    rcases List.mem_cons.mp hm with hm | hm
    · subst hm
      rw [initializedValue.eq_def]
      simp [hk, h]
    · simp [ih hm]

/-- A message with a missing required field, at any depth, is refused. -/
theorem C81_missing (S : Schema) (k : Nat) (fields : List (List Value)) (h : Missing S (S k) fields) :
    encode S k fields = .error .runtime := by
  have : initialized S (S k) fields = false := by
    generalize S k = fs at h
    induction h with
    | here hl => rw [initialized]; simp [hl]
    | inside hk hm _ ih => rw [initialized]; simp [initializedValues_false hk hm ih]
    | later _ ih => rw [initialized]; simp [ih]
  simp [encode, this]

/-- Decoding the encoding of a message into any message of its type, new or used, gives what `readMessage` says: single fields are
replaced, repeated fields are appended to, sub-messages are updated. -/
theorem C81_decode (S : Schema) (hS : SchemaOk S) (k : Nat) (old fields : List (List Value)) (h : Fits S (S k) fields)
    (wire : Bytes) (he : encode S k fields = .ok wire) (hsize : wire.length < 2 ^ 64) :
    decode S k old wire = .ok (readMessage S (S k) old fields) := by
  rw [C81_encode S k fields h] at he
  cases he
  have hok : FieldsOk (messageTlvs S (S k) fields) := by
    refine fieldsOk_of (fun p hp => ?_) hsize
    obtain ⟨f, hf, hn⟩ := List.mem_map.mp (messageTlvs_number S (S k) fields p hp)
    rw [← hn]
    exact (hS k).2 f hf
  obtain ⟨off, h1, _⟩ := message_Ok hS (S k) fields (hS k).1 h old (flat (messageTlvs S (S k) fields)).length
    (flat (messageTlvs S (S k) fields)) 0 (flat (messageTlvs S (S k) fields)).length (Nat.le_refl _)
    ⟨⟨[], by simp⟩, by simp, hok⟩
  unfold decode
  show Except.map Prod.fst ((decodeFields S (decodeMessageValue S _) (S k) old _).run _ 0) = _
  rw [h1]
  rfl

theorem ascii_bytes (s : List Nat) (h : ∀ c ∈ s, c < 128) : (s.flatMap Spec.utf8).map (fun b => b.toNat) = s := by
  induction s with
  | nil => rfl
  | cons c s ih =>
    have hc := h c (by simp)
    have : Spec.utf8 c = [UInt8.ofNat c] := by
      unfold Spec.utf8
      rw [if_pos (by omega)]
    rw [List.flatMap_cons, this, List.map_append, ih fun d hd => h d (List.mem_cons_of_mem _ hd)]
    simp
    omega

mutual
theorem readItem_faithful (S : Schema) (f : Field) (v : Value) (h : FitsValue S f v) (hf : FaithfulValue S f v)
    (hr : f.label = .repeated) : readItem S f v = [v] := by
  match v with
  | .int n => simp [readItem]
  | .bytes b => simp [readItem]
  | .text s =>
    simp only [FaithfulValue] at hf
    simp [readItem, ascii_bytes s hf]
  | .bool true => simp [readItem]
  | .bool false => simp [FaithfulValue, hr] at hf
  | .msg fields =>
    rw [FitsValue.eq_def] at h
    rw [FaithfulValue.eq_def] at hf
    rw [readItem.eq_def]
    cases ht : f.type with
    | message k =>
      simp only [ht] at h hf ⊢
      rw [readMessage_faithful S (S k) fields h hf.2]
    | _ => simp [ht] at h

theorem readItems_faithful (S : Schema) (f : Field) (vs : List Value) (h : FitsValues S f vs) (hf : FaithfulValues S f vs)
    (hr : f.label = .repeated) : readItems S f vs = vs := by
  match vs with
  | [] => simp [readItems]
  | v :: vs =>
    simp only [FitsValues] at h
    simp only [FaithfulValues] at hf
    simp [readItems, readItem_faithful S f v h.1 hf.1 hr, readItems_faithful S f vs h.2 hf.2 hr]

theorem readSingle_faithful (S : Schema) (f : Field) (v : Value) (h : FitsValue S f v) (hf : FaithfulValue S f v)
    (hr : f.label ≠ .repeated) : readSingle S f [] v = [v] := by
  match v with
  | .int n => simp [readSingle]
  | .bytes b => simp [readSingle]
  | .text s =>
    simp only [FaithfulValue] at hf
    simp [readSingle, ascii_bytes s hf]
  | .bool true => simp [readSingle]
  | .bool false =>
    simp [FaithfulValue] at hf
    simp [readSingle, hf]
  | .msg fields =>
    rw [FitsValue.eq_def] at h
    rw [FaithfulValue.eq_def] at hf
    rw [readSingle.eq_def]
    cases ht : f.type with
    | message k =>
      simp only [ht] at h hf ⊢
      have : readMessage S (S k) (present []) fields = fields := readMessage_faithful S (S k) fields h hf.2
      rw [this]
      obtain ⟨vs, hm, hne⟩ := hf.1.resolve_left hr
      have : fields.all List.isEmpty = false := by
        rw [List.all_eq_false]
        exact ⟨vs, hm, by simp [hne]⟩
      simp [this]
    | _ => simp [ht] at h

theorem readField_faithful (S : Schema) (f : Field) (vs : List Value) (hc : Count f.label vs.length) (h : FitsValues S f vs)
    (hf : FaithfulValues S f vs) : readField S f [] vs = vs := by
  match vs with
  | [] => simp [readField]
  | v :: vs =>
    simp only [FitsValues] at h
    simp only [FaithfulValues] at hf
    by_cases hr : f.label = .repeated
    · simp [readField, hr, readItem_faithful S f v h.1 hf.1 hr, readItems_faithful S f vs h.2 hf.2 hr]
    · have : vs = [] := by
        cases hlab : f.label
        · rw [hlab] at hc; simp [Count] at hc; exact hc
        · rw [hlab] at hc; simp [Count] at hc; exact hc
        · exact absurd hlab hr
      subst this
      simp [readField, hr, readSingle_faithful S f v h.1 hf.1 hr]

theorem readMessage_faithful (S : Schema) (fs : List Field) (fields : List (List Value)) (h : Fits S fs fields)
    (hf : Faithful S fs fields) : readMessage S fs [] fields = fields := by
  match fs, fields with
  | [], [] => simp [readMessage]
  | [], _ :: _ => simp [Fits] at h
  | _ :: _, [] => simp [Fits] at h
  | f :: fs, vs :: fields =>
    simp only [Fits] at h
    simp only [Faithful] at hf
    simp [readMessage, readField_faithful S f vs h.1 h.2.1 hf.1, readMessage_faithful S fs fields h.2.2 hf.2]
end

/-- Decoding the encoding of a message into a new message gives the same message.  Excepted: strings that are not ASCII, booleans
that are false outside of required fields, and sub-messages with no field set outside of repeated fields (the theorems below show
that these come back changed). -/
theorem C81_roundtrip_partial (S : Schema) (hS : SchemaOk S) (k : Nat) (fields : List (List Value)) (h : Fits S (S k) fields)
    (hf : Faithful S (S k) fields) (hsize : (flat (messageTlvs S (S k) fields)).length < 2 ^ 64) :
    ∃ wire, encode S k fields = .ok wire ∧ decode S k (fresh (S k)) wire = .ok fields := by
  refine ⟨_, C81_encode S k fields h, ?_⟩
  rw [C81_decode S hS k (fresh (S k)) fields h _ (C81_encode S k fields h) hsize, readMessage_fresh,
    readMessage_faithful S (S k) fields h hf]

/-- So messages that differ have different encodings. -/
theorem C81_injective_partial (S : Schema) (hS : SchemaOk S) (k : Nat) (a b : List (List Value)) (ha : Fits S (S k) a)
    (hb : Fits S (S k) b) (fa : Faithful S (S k) a) (fb : Faithful S (S k) b)
    (hsize : (flat (messageTlvs S (S k) a)).length < 2 ^ 64) (he : encode S k a = encode S k b) : a = b := by
  rw [C81_encode S k a ha, C81_encode S k b hb] at he
  have he := Except.ok.inj he
  have h1 := C81_decode S hS k [] a ha _ (C81_encode S k a ha) hsize
  have h2 := C81_decode S hS k [] b hb _ (C81_encode S k b hb) (by rw [← he]; exact hsize)
  rw [he, h2, readMessage_faithful S _ a ha fa, readMessage_faithful S _ b hb fb] at h1
  exact (Except.ok.inj h1).symm

theorem decodeField_required {S : Schema} {nested} {f : Field} {old vs : List Value} {e : Nat} {inp : Bytes} {off off' : Nat}
    (hl : f.label = .required) (hm : ∀ k, f.type ≠ .message k)
    (h : (decodeField S nested f old e).run inp off = .ok (vs, off')) : ∃ v, vs = [v] := by
  unfold decodeField at h
  rw [if_neg (by rw [hl]; decide), if_neg (by rw [hl]; decide)] at h
  simp only [] at h
  cases ht : f.type with
  | message k => exact absurd ht (hm k)
  | _ =>
    rw [Dec.bind_eq_ok] at h
    obtain ⟨v, o, _, h2⟩ := h
    cases h2
    exact ⟨v, rfl⟩

/-- Whatever the input: if decoding succeeds, every required field that is not a sub-message has a value. -/
theorem C81_required (S : Schema) (k : Nat) (old r : List (List Value)) (input : Bytes) (h : decode S k old input = .ok r) :
    r.length = (S k).length ∧ ∀ (i : Nat) (f : Field) (vs : List Value), (S k)[i]? = some f → r[i]? = some vs → f.label = .required →
      (∀ j, f.type ≠ .message j) → ∃ v, vs = [v] := by
  unfold decode at h
  cases hr : (decodeMessageValue S (input.length + 1) (S k) old input.length).run input 0 with
  | error x => rw [hr] at h; cases h
  | ok p =>
    obtain ⟨r', off'⟩ := p
    rw [hr] at h
    obtain rfl : r' = r := Except.ok.inj h
    replace hr : (decodeFields S (decodeMessageValue S input.length) (S k) old input.length).run input 0 = .ok (r', off') := hr
    clear h
    generalize decodeMessageValue S input.length = nested, input.length = e, S k = fs, (0 : Nat) = off at hr
    induction fs generalizing old r' off off' with
    | nil => cases hr; exact ⟨rfl, fun i f vs hi => by simp at hi⟩
    | cons f fs ih =>
      unfold decodeFields at hr
      rw [Dec.bind_eq_ok] at hr
      obtain ⟨vs, o1, h1, hr⟩ := hr
      rw [Dec.bind_eq_ok] at hr
      obtain ⟨rest, o2, h2, hr⟩ := hr
      cases hr
      obtain ⟨i1, i2⟩ := ih _ _ _ _ h2
      refine ⟨by simp [i1], fun i g ws hi hw hl hm => ?_⟩
      cases i with
      | zero => cases hi; cases hw; exact decodeField_required hl hm h1
      | succ i => exact i2 i g ws hi hw hl hm

/-! ### Departures -/

/-- A message type with a string, an optional boolean, an optional sub-message (of the same type) and a repeated boolean. -/
def exOdd : Schema := fun _ =>
  [⟨1, .string, .optional⟩, ⟨2, .bool, .optional⟩, ⟨3, .message 0, .optional⟩, ⟨4, .bool, .repeated⟩]

theorem exOdd_ok : SchemaOk exOdd := fun k => ⟨(by decide : ([1, 2, 3, 4] : List Nat).Nodup), by
  intro f hf
  simp only [exOdd, List.mem_cons, List.not_mem_nil, or_false] at hf
  rcases hf with rfl | rfl | rfl | rfl <;> decide⟩

/-- The string "é" comes back as "Ã©". -/
theorem C81_string : ∃ wire, encode exOdd 0 [[.text [0xe9]], [], [], []] = .ok wire ∧
    decode exOdd 0 (fresh (exOdd 0)) wire = .ok [[.text [0xc3, 0xa9]], [], [], []] := by
  have hf : Fits exOdd (exOdd 0) [[.text [0xe9]], [], [], []] := by
    simp [exOdd, Fits, FitsValues, FitsValue, Count, Scalar]
  refine ⟨[1, 2, 0xc3, 0xa9], by decide +kernel, ?_⟩
  rw [C81_decode exOdd exOdd_ok 0 _ _ hf [1, 2, 0xc3, 0xa9] (by decide +kernel) (by decide), readMessage_fresh]
  rfl

/-- An optional boolean that is set to false comes back as not set, and a false in a repeated field is lost. -/
theorem C81_false : ∃ wire, encode exOdd 0 [[], [.bool false], [], [.bool true, .bool false, .bool true]] = .ok wire ∧
    decode exOdd 0 (fresh (exOdd 0)) wire = .ok [[], [], [], [.bool true, .bool true]] := by
  have hf : Fits exOdd (exOdd 0) [[], [.bool false], [], [.bool true, .bool false, .bool true]] := by
    simp [exOdd, Fits, FitsValues, FitsValue, Count]
  refine ⟨[4, 0, 4, 0], by decide +kernel, ?_⟩
  rw [C81_decode exOdd exOdd_ok 0 _ _ hf [4, 0, 4, 0] (by decide +kernel) (by decide), readMessage_fresh]
  rfl

/-- A sub-message that is present but has no field set comes back as absent. -/
theorem C81_empty : ∃ wire, encode exOdd 0 [[], [], [.msg [[], [], [], []]], []] = .ok wire ∧
    decode exOdd 0 (fresh (exOdd 0)) wire = .ok [[], [], [], []] := by
  have hf : Fits exOdd (exOdd 0) [[], [], [.msg [[], [], [], []]], []] := by
    simp [exOdd, Fits, FitsValues, FitsValue, Count]
  refine ⟨[3, 0], by decide +kernel, ?_⟩
  rw [C81_decode exOdd exOdd_ok 0 _ _ hf [3, 0] (by decide +kernel) (by decide), readMessage_fresh]
  rfl

/-! ### The sync state of ChronoSync (sync_state_pb2.py:56-160) -/

/-- 0: SyncStateMsg, 1: SyncState, 2: SeqNo. -/
def syncSchema : Schema
  | 0 => [⟨1, .message 1, .repeated⟩]
  | 1 => [⟨1, .string, .required⟩, ⟨2, .enum [0, 1, 2], .required⟩, ⟨3, .message 2, .optional⟩, ⟨4, .bytes, .optional⟩]
  | 2 => [⟨1, .uint64, .required⟩, ⟨2, .uint64, .required⟩]
  | _ => []

theorem syncSchema_ok : SchemaOk syncSchema := by
  intro k
  match k with
  | 0 => exact ⟨by decide, by decide⟩
  | 1 => exact ⟨by decide, by decide⟩
  | 2 => exact ⟨by decide, by decide⟩
  | k + 3 => exact ⟨List.nodup_nil, fun f hf => by cases hf⟩

/-- A sync state message with the given prefixes, session and sequence numbers. -/
def syncMessage (updates : List (List Nat × Nat × Nat)) : List (List Value) :=
  [updates.map fun u => .msg [[.text u.1], [.int 0], [.msg [[.int u.2.2], [.int u.2.1]]], []]]

theorem syncFits (updates : List (List Nat × Nat × Nat))
    (h : ∀ u ∈ updates, (∀ c ∈ u.1, c < 128) ∧ u.2.1 < 2 ^ 64 ∧ u.2.2 < 2 ^ 64) :
    Fits syncSchema (syncSchema 0) (syncMessage updates) ∧ Faithful syncSchema (syncSchema 0) (syncMessage updates) := by
  have key : ∀ l : List (List Nat × Nat × Nat), (∀ u ∈ l, (∀ c ∈ u.1, c < 128) ∧ u.2.1 < 2 ^ 64 ∧ u.2.2 < 2 ^ 64) →
      FitsValues syncSchema ⟨1, .message 1, .repeated⟩
        (l.map fun u => .msg [[.text u.1], [.int 0], [.msg [[.int u.2.2], [.int u.2.1]]], []]) ∧
      FaithfulValues syncSchema ⟨1, .message 1, .repeated⟩
        (l.map fun u => .msg [[.text u.1], [.int 0], [.msg [[.int u.2.2], [.int u.2.1]]], []]) := by
    intro l
    induction l with
    | nil => intro _; simp [FitsValues, FaithfulValues]
    | cons u l ih =>
      intro hl
      obtain ⟨i1, i2⟩ := ih fun v hv => hl v (List.mem_cons_of_mem _ hv)
      obtain ⟨h1, h2, h3⟩ := hl u (by simp)
      have h1' : ∀ c ∈ u.1, Scalar c := fun c hc => .inl (by have := h1 c hc; omega)
      have h2' : (u.2.1 : Int) < 18446744073709551616 := by omega
      have h3' : (u.2.2 : Int) < 18446744073709551616 := by omega
      simp only [List.map_cons, FitsValues, FaithfulValues]
      refine ⟨⟨?_, i1⟩, ?_, i2⟩
      · simp [FitsValue, Fits, FitsValues, syncSchema, Count, h2', h3']
        exact h1'
      · simp [FaithfulValue, Faithful, FaithfulValues, syncSchema]
        exact h1
  obtain ⟨a, b⟩ := key updates h
  exact ⟨⟨trivial, a, trivial⟩, b, trivial⟩

/-- A sync state message of any number of updates, whose prefixes are URIs of names (ASCII), comes back as it was. -/
theorem C81_sync (updates : List (List Nat × Nat × Nat))
    (h : ∀ u ∈ updates, (∀ c ∈ u.1, c < 128) ∧ u.2.1 < 2 ^ 64 ∧ u.2.2 < 2 ^ 64)
    (hsize : (flat (messageTlvs syncSchema (syncSchema 0) (syncMessage updates))).length < 2 ^ 64) :
    ∃ wire, encode syncSchema 0 (syncMessage updates) = .ok wire ∧
      decode syncSchema 0 (fresh (syncSchema 0)) wire = .ok (syncMessage updates) :=
  C81_roundtrip_partial syncSchema syncSchema_ok 0 _ (syncFits updates h).1 (syncFits updates h).2 hsize

-- Non-vacuity.
example : encode syncSchema 0 (syncMessage [([0x2f, 0x61], 7, 300), ([0x2f, 0x62], 8, 0)]) =
    .ok [1, 16, 1, 2, 0x2f, 0x61, 2, 1, 0, 3, 7, 1, 2, 1, 44, 2, 1, 7,
         1, 15, 1, 2, 0x2f, 0x62, 2, 1, 0, 3, 6, 1, 1, 0, 2, 1, 8] := by decide +kernel

example : Missing syncSchema (syncSchema 0) [[.msg [[], [.int 0], [], []]]] :=
  .inside rfl (List.mem_cons_self ..) (.here rfl)

/-- Decoding a second message into a message that was used keeps the old updates. -/
example : ∃ wire, encode syncSchema 0 (syncMessage [([0x2f, 0x62], 8, 0)]) = .ok wire ∧
    decode syncSchema 0 (syncMessage [([0x2f, 0x61], 7, 300)]) wire =
      .ok (syncMessage [([0x2f, 0x61], 7, 300), ([0x2f, 0x62], 8, 0)]) := by
  have hf := syncFits [([0x2f, 0x62], 8, 0)] (by decide)
  refine ⟨_, C81_encode syncSchema 0 _ hf.1, ?_⟩
  rw [C81_decode syncSchema syncSchema_ok 0 _ _ hf.1 _ (C81_encode syncSchema 0 _ hf.1) (by decide +kernel)]
  rfl

end PyNDN.Protobuf
