import Verif.Lemmas.Read
import Verif.Lemmas.Encoder
/-
Property theorems C01, C02, C03, C05: the TLV encoder and decoder.
-/
namespace PyNDN

/-! ## C01 VAR-NUMBER round trip -/

/-- Reading back a written VAR-NUMBER at any offset, in any surroundings, gives the number and stops
right after it. -/
theorem C01_varNumber_roundtrip (n : Nat) (hn : n < 2 ^ 64) (before after : Bytes) :
    readVarNumber.run (before ++ writeVarNumber n after) before.length
      = .ok (n, before.length + (writeVarNumber n []).length) := by
  have h : (before ++ writeVarNumber n after).drop before.length = varNumberBytes n ++ after := by
    simp [writeVarNumber]
  have := readVarNumber_drop hn h
  simpa [writeVarNumber] using this

/-- The bytes written are the shortest VAR-NUMBER form of the NDN packet format, put in front of what
was written before. -/
theorem C01_varNumber_bytes (n : Nat) (out : Bytes) :
    writeVarNumber n out = Spec.varNum n ++ out := writeVarNumber_spec n out

theorem C01_varNumber_size (n : Nat) : (writeVarNumber n []).length = Spec.varNumSize n := by
  rw [writeVarNumber_spec]
  unfold Spec.varNum Spec.varNumSize
  repeat' split
  all_goals simp [Spec.be]

/-- No other form of the number is shorter. -/
theorem C01_varNumber_shortest (n : Nat) (bs : Bytes) (h : Spec.VarNumForm n bs) :
    (writeVarNumber n []).length ≤ bs.length := by
  rw [C01_varNumber_size]
  unfold Spec.varNumSize
  rcases h with ⟨hn, rfl⟩ | ⟨hn, rfl⟩ | ⟨hn, rfl⟩ | ⟨hn, rfl⟩ <;> (repeat' split) <;>
    simp [Spec.be] <;> omega

/-- The bound 2^64 is needed: a larger number is silently truncated by the encoder. -/
theorem C01_varNumber_truncates : writeVarNumber (2 ^ 64 + 7) [] = [255, 0, 0, 0, 0, 0, 0, 0, 7] := by
  decide

example : readVarNumber.run [9, 253, 1, 44, 5] 1 = .ok (300, 4) := by decide
example : (300 : Nat) < 2 ^ 64 ∧ Spec.VarNumForm 300 [254, 0, 0, 1, 44] := by
  refine ⟨by decide, Or.inr (Or.inr (Or.inl ⟨by decide, by decide⟩))⟩

/-! ## C02 non-negative integer TLVs -/

theorem C02_nonNegativeIntegerTlv_roundtrip (t n : Nat) (ht : t < 2 ^ 64) (hn : n < 2 ^ 64)
    (before after : Bytes) :
    ∃ bs, writeNonNegativeIntegerTlv t n after = .ok (bs ++ after) ∧
      bs = Spec.tlv t (Spec.nonNeg n) ∧
      (readNonNegativeIntegerTlv t).run (before ++ (bs ++ after)) before.length
        = .ok (n, before.length + bs.length) := by
  refine ⟨_, writeNonNegativeIntegerTlv_nat t n after, rfl, ?_⟩
  exact readNonNegativeIntegerTlv_tlv ht hn (rest := after) (by simp)

theorem C02_negative_refused (t : Nat) (v : Int) (hv : v < 0) (out : Bytes) :
    writeNonNegativeIntegerTlv t v out = .error .value ∧
      writeNonNegativeInteger v out = .error .value := by
  simp [writeNonNegativeIntegerTlv, writeNonNegativeInteger, hv, bind, Except.bind]

/-- The optional write: nothing for `None` (or a negative number), otherwise the plain write. -/
theorem C02_optional_write (t : Nat) (out : Bytes) :
    writeOptionalNonNegativeIntegerTlv t none out = .ok out ∧
    (∀ v : Int, v < 0 → writeOptionalNonNegativeIntegerTlv t (some v) out = .ok out) ∧
    (∀ v : Int, 0 ≤ v → writeOptionalNonNegativeIntegerTlv t (some v) out
      = writeNonNegativeIntegerTlv t v out) := by
  refine ⟨rfl, ?_, ?_⟩
  · intro v hv
    simp only [writeOptionalNonNegativeIntegerTlv]; rw [if_neg (by omega)]
  · intro v hv
    simp only [writeOptionalNonNegativeIntegerTlv]; rw [if_pos (by omega)]

/-- The optional read returns the number when the element of that type is next, and `None` (consuming
nothing) at the end of the enclosing element or before an element of another type. -/
theorem C02_optional_read (t : Nat) (ht : t < 2 ^ 64) (before after : Bytes) :
    (∀ n < 2 ^ 64, ∀ e, before.length < e →
      (readOptionalNonNegativeIntegerTlv t e).run
        (before ++ (Spec.tlv t (Spec.nonNeg n) ++ after)) before.length
      = .ok (some n, before.length + (Spec.tlv t (Spec.nonNeg n)).length)) ∧
    (∀ e, e ≤ before.length →
      (readOptionalNonNegativeIntegerTlv t e).run (before ++ after) before.length
      = .ok (none, before.length)) ∧
    (∀ t' v e, t' < 2 ^ 64 → t' ≠ t → before.length < e →
      (readOptionalNonNegativeIntegerTlv t e).run
        (before ++ (Spec.tlv t' v ++ after)) before.length
      = .ok (none, before.length)) := by
  refine ⟨?_, ?_, ?_⟩
  · intro n hn e he
    have hd : (before ++ (Spec.tlv t (Spec.nonNeg n) ++ after)).drop before.length
        = Spec.tlv t (Spec.nonNeg n) ++ after := by simp
    unfold readOptionalNonNegativeIntegerTlv
    rw [Dec.bind_ok (peekType_tlv ht he hd)]
    simp only [beq_self_eq_true, if_true]
    rw [Dec.bind_ok (readNonNegativeIntegerTlv_tlv ht hn hd)]; rfl
  · intro e he
    unfold readOptionalNonNegativeIntegerTlv
    rw [Dec.bind_ok (peekType_end he)]; rfl
  · intro t' v e ht' hne he
    have hd : (before ++ (Spec.tlv t' v ++ after)).drop before.length
        = Spec.tlv t' v ++ after := by simp
    unfold readOptionalNonNegativeIntegerTlv
    rw [Dec.bind_ok (peekType_tlv ht' he hd)]
    simp [hne]

/-- A length other than 1, 2, 4, 8 is refused. -/
theorem C02_bad_length_refused (l : Nat) (h : l ≠ 1 ∧ l ≠ 2 ∧ l ≠ 4 ∧ l ≠ 8) (inp : Bytes) (off : Nat) :
    (readNonNegativeInteger l).run inp off = .error .value := by
  unfold readNonNegativeInteger catchIndex
  rw [if_neg h.1, if_neg h.2.1, if_neg h.2.2.1, if_neg h.2.2.2]
  rfl

example : (readNonNegativeIntegerTlv 12).run [0, 12, 2, 15, 160, 7] 1 = .ok (4000, 5) := by decide
example : writeNonNegativeIntegerTlv 12 4000 [7] = .ok [12, 2, 15, 160, 7] := by rfl

/-! ## C03 the encoder's output does not depend on its buffer -/

/-- A write call on a `TlvEncoder` (tlv_encoder.py:52-227). -/
inductive WriteCall where
  | varNumber (n : Nat)
  | typeAndLength (t l : Nat)
  | nonNegativeInteger (v : Int)
  | nonNegativeIntegerTlv (t : Nat) (v : Int)
  | optionalNonNegativeIntegerTlv (t : Nat) (v : Option Int)
  | buffer (b : Option Bytes)
  | blobTlv (t : Nat) (v : Option Bytes)
  | optionalBlobTlv (t : Nat) (v : Option Bytes)

/-- Perform the call on an encoder. -/
def WriteCall.perform (c : WriteCall) (e : LowEnc) : Except Err LowEnc :=
  match c with
  | varNumber n => e.writeVarNumber n
  | typeAndLength t l => e.writeTypeAndLength t l
  | nonNegativeInteger v => e.writeNonNegativeInteger v
  | nonNegativeIntegerTlv t v => e.writeNonNegativeIntegerTlv t v
  | optionalNonNegativeIntegerTlv t v => e.writeOptionalNonNegativeIntegerTlv t v
  | buffer b => .ok (e.writeBuffer b)
  | blobTlv t v => e.writeBlobTlv t v
  | optionalBlobTlv t v => e.writeOptionalBlobTlv t v

/-- What the call should contribute to the output (by the packet format), or the exception. -/
def WriteCall.piece : WriteCall → Except Err Bytes
  | varNumber n => .ok (Spec.varNum n)
  | typeAndLength t l => .ok (Spec.varNum t ++ Spec.varNum l)
  | nonNegativeInteger v => if v < 0 then .error .value else .ok (Spec.nonNeg v.toNat)
  | nonNegativeIntegerTlv t v =>
    if v < 0 then .error .value else .ok (Spec.tlv t (Spec.nonNeg v.toNat))
  | optionalNonNegativeIntegerTlv t (some v) =>
    .ok (if v < 0 then [] else Spec.tlv t (Spec.nonNeg v.toNat))
  | optionalNonNegativeIntegerTlv _ none => .ok []
  | buffer b => .ok (b.getD [])
  | blobTlv t v => .ok (Spec.tlv t (v.getD []))
  | optionalBlobTlv t (some v) => .ok (if v = [] then [] else Spec.tlv t v)
  | optionalBlobTlv _ none => .ok []

/-- Perform calls in order, stopping at an exception. -/
def performAll (e : LowEnc) : List WriteCall → Except Err LowEnc
  | [] => .ok e
  | c :: cs => do performAll (← c.perform e) cs

/-- The expected output: pieces concatenated in reverse call order, or the first exception. -/
def expectedOutput (acc : Bytes) : List WriteCall → Except Err Bytes
  | [] => .ok acc
  | c :: cs => do expectedOutput ((← c.piece) ++ acc) cs

theorem perform_rep {e : LowEnc} {out : Bytes} (h : Rep e out) (c : WriteCall) :
    RepR (c.perform e) (do return (← c.piece) ++ out) := by
  have nn : ∀ t v, 0 ≤ v → writeNonNegativeIntegerTlv t v out
      = .ok (Spec.tlv t (Spec.nonNeg v.toNat) ++ out) := by
    intro t v hv
    obtain ⟨n, rfl⟩ := Int.eq_ofNat_of_zero_le hv
    simpa using writeNonNegativeIntegerTlv_nat t n out
  have blob : ∀ t v, RepR (e.writeBlobTlv t v) (.ok (Spec.tlv t (v.getD []) ++ out)) := by
    intro t v
    cases v with
    | none =>
      obtain ⟨e', h1, r⟩ := writeTypeAndLength_rep h t 0
      have h2 := writeBlobTlv_none t out
      simp only [writeBlobTlv] at h2
      simp only [LowEnc.writeBlobTlv, h1, Option.getD_none]
      rw [h2] at r; exact r
    | some b =>
      obtain ⟨e', h1, r⟩ := writeTypeAndLength_rep (writeBuffer_rep h (some b)) t b.length
      have h2 := writeBlobTlv_some t b out
      simp only [writeBlobTlv] at h2
      simp only [LowEnc.writeBlobTlv, h1, Option.getD_some]
      rw [h2] at r; exact r
  cases c with
  | varNumber n =>
    obtain ⟨e', h1, r⟩ := writeVarNumber_rep h n
    rw [writeVarNumber_spec] at r
    simp only [WriteCall.perform, h1, WriteCall.piece, bind, Except.bind]; exact r
  | typeAndLength t l =>
    obtain ⟨e', h1, r⟩ := writeTypeAndLength_rep h t l
    rw [writeTypeAndLength_spec, ← List.append_assoc] at r
    simp only [WriteCall.perform, h1, WriteCall.piece, bind, Except.bind]; exact r
  | nonNegativeInteger v =>
    have r := writeNonNegativeInteger_rep h v
    unfold writeNonNegativeInteger at r
    simp only [WriteCall.perform, WriteCall.piece]
    split <;> rename_i hv
    · rw [if_pos hv] at r; exact r
    · rw [if_neg hv, nonNegIntBytes_spec] at r; exact r
  | nonNegativeIntegerTlv t v =>
    have r := writeNonNegativeIntegerTlv_rep h t v
    simp only [WriteCall.perform, WriteCall.piece]
    split <;> rename_i hv
    · rw [(C02_negative_refused t v hv out).1] at r; exact r
    · rw [nn t v (by omega)] at r; exact r
  | optionalNonNegativeIntegerTlv t v =>
    cases v with
    | none => exact h
    | some v =>
      simp only [WriteCall.perform, WriteCall.piece, LowEnc.writeOptionalNonNegativeIntegerTlv]
      have r := writeNonNegativeIntegerTlv_rep h t v
      by_cases hv : v < 0
      · rw [if_pos hv, if_neg (by omega)]; exact h
      · rw [if_neg hv, if_pos (by omega)]
        rw [nn t v (by omega)] at r; exact r
  | buffer b =>
    have r := writeBuffer_rep h b
    cases b with
    | none => exact r
    | some b => exact r
  | blobTlv t v => exact blob t v
  | optionalBlobTlv t v =>
    cases v with
    | none => exact h
    | some b =>
      have r := blob t (some b)
      simp only [WriteCall.perform, WriteCall.piece, LowEnc.writeOptionalBlobTlv]
      by_cases hb : b = []
      · subst hb; exact h
      · rw [if_neg hb, if_pos (List.length_pos_iff.mpr hb)]; exact r

theorem performAll_rep (cs : List WriteCall) : ∀ {e : LowEnc} {out : Bytes}, Rep e out →
    RepR (performAll e cs) (expectedOutput out cs) := by
  induction cs with
  | nil => intro e out h; exact h
  | cons c cs ih =>
    intro e out h
    have r := perform_rep h c
    simp only [performAll, expectedOutput, bind, Except.bind] at r ⊢
    cases h1 : c.perform e with
    | error x =>
      rw [h1] at r
      cases h2 : c.piece with
      | error y => rw [h2] at r; exact r
      | ok o => rw [h2] at r; exact r.elim
    | ok e' =>
      rw [h1] at r
      cases h2 : c.piece with
      | error y => rw [h2] at r; exact r.elim
      | ok o => rw [h2] at r; exact ih r

/-- For every sequence of write calls and every positive initial capacity, the encoder never fails for
a reason of its own, and its output is the concatenation of the pieces in reverse call order. -/
theorem C03_output_independent_of_buffer (cap : Nat) (hcap : 0 < cap) (cs : List WriteCall) :
    (do return (← performAll (LowEnc.new cap) cs).getOutput) = expectedOutput [] cs := by
  have r := performAll_rep cs (new_rep hcap)
  simp only [bind, Except.bind]
  cases h1 : performAll (LowEnc.new cap) cs with
  | error x =>
    rw [h1] at r
    cases h2 : expectedOutput [] cs with
    | error y => rw [h2] at r; exact congrArg _ r
    | ok o => rw [h2] at r; exact r.elim
  | ok e' =>
    rw [h1] at r
    cases h2 : expectedOutput [] cs with
    | error y => rw [h2] at r; exact r.elim
    | ok o => rw [h2] at r; exact congrArg _ r.out

/-- With capacity 0 the first write that stores bytes one by one raises IndexError, so "positive" cannot
be dropped (`newArray[-0:] = []` in DynamicByteArray empties the new array). -/
theorem C03_zero_capacity_fails :
    performAll (LowEnc.new 0) [.varNumber 5] = .error .index := by rfl

example : (do return (← performAll (LowEnc.new 1)
      [.buffer (some [1, 2, 3]), .typeAndLength 8 3, .nonNegativeIntegerTlv 12 4000]).getOutput)
    = .ok [12, 2, 15, 160, 8, 3, 1, 2, 3] := by rfl

/-! ## C05 finishing a nested TLV -/

/-- `finishNestedTlvs` succeeds exactly when the bytes from the current offset up to the announced end
are a sequence of zero or more complete elements each of which may be ignored (non-critical type, or
any type if `skipCritical`), and then it is positioned exactly at the end. -/
theorem C05_finish_exact (inp : Bytes) (off e off' : Nat) (skipCritical : Bool)
    (hoff : off ≤ inp.length) :
    (finishNestedTlvs e skipCritical).run inp off = .ok ((), off') ↔
      off' = e ∧ off ≤ e ∧ e ≤ inp.length ∧
      Spec.Elements (fun t => skipCritical = true ∨ ¬ Spec.critical t) ((inp.take e).drop off) := by
  constructor
  · intro h
    obtain ⟨h1, bs, he, hd, hlen, hle⟩ := finishNestedTlvs_inv h
    refine ⟨h1, by omega, hle hoff, ?_⟩
    have : (inp.take e).drop off = bs := by
      rw [List.drop_take, hd, hlen]; simp
    rw [this]; exact he
  · rintro ⟨rfl, h1, h2, he⟩
    have hlen : off' = off + ((inp.take off').drop off).length := by
      simp only [List.length_drop, List.length_take]; omega
    have hd : inp.drop off = (inp.take off').drop off ++ inp.drop off' := by
      rw [List.drop_take]
      conv => rhs; rw [show inp.drop off' = (inp.drop off).drop (off' - off) by
        rw [List.drop_drop]; congr 1; omega]
      rw [List.take_append_drop]
    have := finishNestedTlvs_elements (sc := skipCritical) he hd
    rwa [← hlen] at this

/-- An unknown critical element in front is refused with ValueError. -/
theorem C05_critical_refused (inp v bs rest : Bytes) (off e t : Nat) (hc : Spec.critical t)
    (hb : Spec.Element t v bs) (hd : inp.drop off = bs ++ rest) (he : off < e) :
    (finishNestedTlvs e false).run inp off = .error .value := by
  unfold finishNestedTlvs
  rw [Dec.bind_ok (getOffset_run _ _), if_neg (by omega)]
  apply Dec.bind_error
  obtain ⟨fuel, hf⟩ : ∃ fuel, e - off = fuel + 1 := ⟨e - off - 1, by omega⟩
  rw [hf]
  unfold finishLoop
  rw [Dec.bind_ok (getOffset_run _ _), if_pos he]
  apply Dec.bind_error
  obtain ⟨tb, lb, ht, hl, rfl⟩ := hb
  simp only [List.append_assoc] at hd
  unfold skipUnrecognized
  rw [Dec.bind_ok (readVarNumber_form ht hd), if_pos]
  · rfl
  · rw [critical_and_iff]; simp [Skippable, hc]

example : (finishNestedTlvs 5).run [32, 1, 9, 34, 0, 7] 0 = .ok ((), 5) := by decide
example : (finishNestedTlvs 3).run [33, 1, 9] 0 = .error .value ∧ Spec.critical 33 ∧
    Spec.Element 33 [9] [33, 1, 9] := by
  refine ⟨by decide, Or.inr (by decide), [33], [1], Or.inl ⟨by decide, by decide⟩,
    Or.inl ⟨by decide, by decide⟩, rfl⟩

end PyNDN
