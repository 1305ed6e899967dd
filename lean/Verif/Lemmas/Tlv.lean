import Verif.Lemmas.Decoder
import Verif.Spec.Tlv
/-
Helper lemmas: the writes produce the specified bytes; the reads on a given input prefix.
-/
namespace PyNDN

theorem byteAtShift_eq (n k : Nat) : byteAtShift n k = UInt8.ofNat (n / 2 ^ k) := by
  apply UInt8.toNat_inj.mp
  rw [byteAtShift_toNat]; simp [UInt8.toNat_ofNat']

theorem varNumberBytes_spec (n : Nat) : varNumberBytes n = Spec.varNum n := by
  unfold varNumberBytes Spec.varNum
  have e1 : (n < 253) = (n ≤ 252) := by apply propext; omega
  have e2 : (n ≤ 0xffff) = (n < 2 ^ 16) := by apply propext; omega
  have e3 : (n ≤ 0xffffffff) = (n < 2 ^ 32) := by apply propext; omega
  simp only [e1, e2, e3, byteAtShift_eq, Spec.be, List.nil_append, List.cons_append,
    Nat.div_div_eq_div_mul, Nat.reduceMul, Nat.reducePow, Nat.div_one]

theorem nonNegIntBytes_spec (n : Nat) : nonNegIntBytes n = Spec.nonNeg n := by
  unfold nonNegIntBytes Spec.nonNeg
  have e1 : (n ≤ 0xff) = (n < 2 ^ 8) := by apply propext; omega
  have e2 : (n ≤ 0xffff) = (n < 2 ^ 16) := by apply propext; omega
  have e3 : (n ≤ 0xffffffff) = (n < 2 ^ 32) := by apply propext; omega
  simp only [e1, e2, e3, byteAtShift_eq, Spec.be, List.nil_append, List.cons_append,
    Nat.div_div_eq_div_mul, Nat.reduceMul, Nat.reducePow, Nat.div_one]

theorem writeVarNumber_spec (n : Nat) (out : Bytes) :
    writeVarNumber n out = Spec.varNum n ++ out := by
  simp [writeVarNumber, varNumberBytes_spec]

theorem writeTypeAndLength_spec (t l : Nat) (out : Bytes) :
    writeTypeAndLength t l out = Spec.varNum t ++ (Spec.varNum l ++ out) := by
  simp [writeTypeAndLength, writeVarNumber_spec]

theorem writeTypeAndLength_tlv (t : Nat) (v out : Bytes) :
    writeTypeAndLength t v.length (v ++ out) = Spec.tlv t v ++ out := by
  simp [writeTypeAndLength_spec, Spec.tlv]

theorem tlv_append (t : Nat) (v out : Bytes) :
    Spec.tlv t v ++ out = varNumberBytes t ++ (varNumberBytes v.length ++ (v ++ out)) := by
  simp [Spec.tlv, varNumberBytes_spec]

theorem tlv_length (t : Nat) (v : Bytes) :
    (Spec.tlv t v).length = (varNumberBytes t).length + (varNumberBytes v.length).length + v.length := by
  simp [Spec.tlv, varNumberBytes_spec, Nat.add_assoc]

theorem tlv_ne_nil (t : Nat) (v : Bytes) : Spec.tlv t v ≠ [] := by
  have h1 := tlv_length t v
  have h2 := varNumberBytes_length_pos t
  intro h
  rw [h] at h1; simp at h1; omega

theorem writeBlobTlv_some (t : Nat) (v out : Bytes) :
    writeBlobTlv t (some v) out = Spec.tlv t v ++ out := by
  simp [writeBlobTlv, writeBuffer, writeTypeAndLength_tlv]

theorem writeBlobTlv_none (t : Nat) (out : Bytes) :
    writeBlobTlv t none out = Spec.tlv t [] ++ out := by
  simpa [writeBlobTlv] using writeTypeAndLength_tlv t [] out

theorem writeOptionalBlobTlv_some (t : Nat) (v out : Bytes) (h : v ≠ []) :
    writeOptionalBlobTlv t (some v) out = Spec.tlv t v ++ out := by
  have : 0 < v.length := List.length_pos_iff.mpr h
  simp [writeOptionalBlobTlv, this, writeBlobTlv_some]

theorem writeNonNegativeIntegerTlv_nat (t n : Nat) (out : Bytes) :
    writeNonNegativeIntegerTlv t (n : Int) out = .ok (Spec.tlv t (Spec.nonNeg n) ++ out) := by
  have h : ¬ ((n : Int) < 0) := by omega
  have e : (Spec.nonNeg n ++ out).length - out.length = (Spec.nonNeg n).length := by simp
  simp only [writeNonNegativeIntegerTlv, writeNonNegativeInteger, h, if_false, bind, Except.bind,
    Int.toNat_natCast, nonNegIntBytes_spec, e, writeTypeAndLength_tlv]
  rfl

/-! ### Reads on a given input prefix -/

/-- What a type test sees at the front of an encoded element. -/
theorem readTypeAndLength_tlv {inp v rest : Bytes} {off t : Nat} (ht : t < 2 ^ 64)
    (hv : v.length < 2 ^ 64) (h : inp.drop off = Spec.tlv t v ++ rest) :
    (readTypeAndLength t).run inp off
      = .ok (v.length, off + ((Spec.tlv t v).length - v.length)) := by
  have hlen := drop_len h (by simp [tlv_ne_nil])
  rw [tlv_append] at h
  unfold readTypeAndLength
  rw [Dec.bind_ok (readVarNumber_drop ht h)]
  simp only [ne_eq, not_true, if_false]
  have h' := drop_add h
  rw [Dec.bind_ok (readVarNumber_drop hv h')]
  rw [Dec.bind_ok (getOffset_run _ _), Dec.bind_ok (inputLen_run _ _)]
  rw [List.length_append, tlv_length] at hlen
  rw [if_neg (by omega)]
  simp only [Dec.pure_run, tlv_length]
  simp only [Except.ok.injEq, Prod.mk.injEq, true_and]; omega

theorem readTypeAndLength_wrong {inp rest : Bytes} {off t t' : Nat} (ht : t < 2 ^ 64) (hne : t ≠ t')
    (h : inp.drop off = varNumberBytes t ++ rest) :
    (readTypeAndLength t').run inp off = .error .value := by
  unfold readTypeAndLength
  rw [Dec.bind_ok (readVarNumber_drop ht h)]
  simp [hne]

theorem drop_tlv_value {inp v rest : Bytes} {off t : Nat}
    (h : inp.drop off = Spec.tlv t v ++ rest) :
    inp.drop (off + ((Spec.tlv t v).length - v.length)) = v ++ rest := by
  rw [tlv_append] at h
  have h' := drop_add (drop_add h)
  rw [tlv_length]
  rw [show off + ((varNumberBytes t).length + (varNumberBytes v.length).length + v.length - v.length)
    = off + (varNumberBytes t).length + (varNumberBytes v.length).length by omega]
  exact h'

theorem tlv_value_end (off t : Nat) (v : Bytes) :
    off + ((Spec.tlv t v).length - v.length) + v.length = off + (Spec.tlv t v).length := by
  rw [tlv_length]; omega

theorem readNestedTlvsStart_tlv {inp v rest : Bytes} {off t : Nat} (ht : t < 2 ^ 64)
    (hv : v.length < 2 ^ 64) (h : inp.drop off = Spec.tlv t v ++ rest) :
    (readNestedTlvsStart t).run inp off
      = .ok (off + (Spec.tlv t v).length, off + ((Spec.tlv t v).length - v.length)) := by
  unfold readNestedTlvsStart
  rw [Dec.bind_ok (readTypeAndLength_tlv ht hv h), Dec.bind_ok (getOffset_run _ _)]
  have := tlv_value_end off t v
  simp only [Dec.pure_run, Except.ok.injEq, Prod.mk.injEq, and_true]; omega

theorem getSlice_drop {inp v rest : Bytes} {off : Nat} (h : inp.drop off = v ++ rest) :
    (getSlice off (off + v.length)).run inp off = .ok (v, off) := by
  simp only [getSlice_run]
  have : (inp.take (off + v.length)).drop off = v := by
    rw [List.drop_take, h]; simp
  rw [this]

theorem readBlobTlv_tlv {inp v rest : Bytes} {off t : Nat} (ht : t < 2 ^ 64)
    (hv : v.length < 2 ^ 64) (h : inp.drop off = Spec.tlv t v ++ rest) :
    (readBlobTlv t).run inp off = .ok (v, off + (Spec.tlv t v).length) := by
  unfold readBlobTlv
  rw [Dec.bind_ok (readTypeAndLength_tlv ht hv h), Dec.bind_ok (getOffset_run _ _),
    Dec.bind_ok (getSlice_drop (drop_tlv_value h)), Dec.bind_ok (advance_run _ _ _)]
  simp only [Dec.pure_run, tlv_value_end]

theorem nonNeg_length_lt (n : Nat) : (Spec.nonNeg n).length < 2 ^ 64 := by
  have := nonNegIntBytes_length_lt n
  rw [nonNegIntBytes_spec] at this; omega

theorem readNonNegativeIntegerTlv_tlv {inp rest : Bytes} {off t n : Nat} (ht : t < 2 ^ 64)
    (hn : n < 2 ^ 64) (h : inp.drop off = Spec.tlv t (Spec.nonNeg n) ++ rest) :
    (readNonNegativeIntegerTlv t).run inp off
      = .ok (n, off + (Spec.tlv t (Spec.nonNeg n)).length) := by
  unfold readNonNegativeIntegerTlv
  rw [Dec.bind_ok (readTypeAndLength_tlv ht (nonNeg_length_lt n) h)]
  have h' := drop_tlv_value h
  rw [← nonNegIntBytes_spec] at h' ⊢
  rw [readNonNegativeInteger_drop hn h', tlv_value_end]

/-- `peekType` past the end. -/
theorem peekType_end {inp : Bytes} {off t e : Nat} (h : e ≤ off) :
    (peekType t e).run inp off = .ok (false, off) := by
  unfold peekType
  rw [Dec.bind_ok (getOffset_run _ _)]
  simp [h]

theorem peekType_bytes {inp rest : Bytes} {off t t' e : Nat} (ht : t < 2 ^ 64) (he : off < e)
    (h : inp.drop off = varNumberBytes t ++ rest) :
    (peekType t' e).run inp off = .ok (t == t', off) := by
  unfold peekType
  rw [Dec.bind_ok (getOffset_run _ _)]
  rw [if_neg (by simpa using he)]
  simp only
  rw [Dec.bind_ok (readVarNumber_drop ht h), Dec.bind_ok (seek_run _ _ _)]
  rfl

theorem peekType_tlv {inp v rest : Bytes} {off t t' e : Nat} (ht : t < 2 ^ 64) (he : off < e)
    (h : inp.drop off = Spec.tlv t v ++ rest) :
    (peekType t' e).run inp off = .ok (t == t', off) := by
  rw [tlv_append] at h
  exact peekType_bytes ht he h

theorem finishNestedTlvs_end {inp : Bytes} {off : Nat} {b : Bool} :
    (finishNestedTlvs off b).run inp off = .ok ((), off) := by
  unfold finishNestedTlvs
  rw [Dec.bind_ok (getOffset_run _ _)]
  simp

end PyNDN
