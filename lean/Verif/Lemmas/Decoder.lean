import Verif.Model.Encoder
import Verif.Model.Decoder
/-
Helper lemmas about the TLV decoder: what each read does when the input at the current offset
starts with given bytes (`inp.drop off = bs ++ rest`).
-/
namespace PyNDN

theorem Dec.bind_def (m : Dec α) (f : α → Dec β) (inp : Bytes) (off : Nat) :
    (m >>= f).run inp off = match m.run inp off with
      | .ok (a, off') => (f a).run inp off'
      | .error e => .error e := rfl

theorem Dec.bind_ok {m : Dec α} {f : α → Dec β} {inp : Bytes} {off off' : Nat} {a : α}
    (h : m.run inp off = .ok (a, off')) : (m >>= f).run inp off = (f a).run inp off' := by
  simp [Dec.bind_def, h]

theorem Dec.bind_error {m : Dec α} {f : α → Dec β} {inp : Bytes} {off : Nat} {e : Err}
    (h : m.run inp off = .error e) : (m >>= f).run inp off = .error e := by
  simp [Dec.bind_def, h]

@[simp] theorem Dec.pure_run (a : α) (inp : Bytes) (off : Nat) :
    (pure a : Dec α).run inp off = .ok (a, off) := rfl

@[simp] theorem Dec.throw_run (e : Err) (inp : Bytes) (off : Nat) :
    (Dec.throw e : Dec α).run inp off = .error e := rfl

@[simp] theorem getOffset_run (inp : Bytes) (off : Nat) : getOffset.run inp off = .ok (off, off) := rfl
@[simp] theorem inputLen_run (inp : Bytes) (off : Nat) :
    inputLen.run inp off = .ok (inp.length, off) := rfl
@[simp] theorem seek_run (o : Nat) (inp : Bytes) (off : Nat) : (seek o).run inp off = .ok ((), o) := rfl
@[simp] theorem advance_run (n : Nat) (inp : Bytes) (off : Nat) :
    (advance n).run inp off = .ok ((), off + n) := rfl
@[simp] theorem getSlice_run (b e : Nat) (inp : Bytes) (off : Nat) :
    (getSlice b e).run inp off = .ok ((inp.take e).drop b, off) := rfl

theorem catchIndex_ok {m : Dec α} {inp : Bytes} {off : Nat} {r : α × Nat}
    (h : m.run inp off = .ok r) : (catchIndex m).run inp off = .ok r := by
  simp [catchIndex, h]

theorem byteAtShift_toNat (n k : Nat) : (byteAtShift n k).toNat = n / 2 ^ k % 256 := by
  unfold byteAtShift
  have h : (255 : Nat) = 2 ^ 8 - 1 := by decide
  rw [h, Nat.and_two_pow_sub_one_eq_mod, Nat.shiftRight_eq_div_pow]
  simp [UInt8.toNat_ofNat']

theorem drop_add {inp bs rest : Bytes} {off : Nat} (h : inp.drop off = bs ++ rest) :
    inp.drop (off + bs.length) = rest := by
  rw [← List.drop_drop, h]; simp

theorem drop_cons_add {inp rest : Bytes} {b : UInt8} {off : Nat} (h : inp.drop off = b :: rest) :
    inp.drop (off + 1) = rest := by
  rw [← List.drop_drop, h]; simp

theorem drop_len {inp bs : Bytes} {off : Nat} (h : inp.drop off = bs) (hne : bs ≠ []) :
    inp.length = off + bs.length := by
  have h1 : inp.length - off = bs.length := by rw [← h]; simp
  have : bs.length ≠ 0 := by simpa using hne
  omega

theorem peekByte_drop {inp bs : Bytes} {off : Nat} (h : inp.drop off = bs) (i : Nat)
    (hi : i < bs.length) : (peekByte i).run inp off = .ok ((bs[i]).toNat, off) := by
  unfold peekByte
  simp only
  rw [← List.getElem?_drop, h, List.getElem?_eq_getElem hi]

theorem varNumberBytes_length_pos (n : Nat) : 0 < (varNumberBytes n).length := by
  unfold varNumberBytes; repeat' split
  all_goals simp

theorem varNumberBytes_ne_nil (n : Nat) : varNumberBytes n ≠ [] := by
  have := varNumberBytes_length_pos n
  intro h; simp [h] at this

/-- Reading back a VAR-NUMBER. -/
theorem readVarNumber_drop {inp rest : Bytes} {off n : Nat} (hn : n < 2 ^ 64)
    (h : inp.drop off = varNumberBytes n ++ rest) :
    readVarNumber.run inp off = .ok (n, off + (varNumberBytes n).length) := by
  unfold readVarNumber
  apply catchIndex_ok
  unfold varNumberBytes at *
  by_cases h1 : n < 253
  · simp only [if_pos h1] at h ⊢
    simp only [List.cons_append, List.nil_append] at h
    rw [Dec.bind_ok (peekByte_drop h 0 (by simp))]
    rw [Dec.bind_ok (advance_run _ _ _)]
    have : (byteAtShift n 0).toNat = n := by
      rw [byteAtShift_toNat]; simp only [Nat.pow_zero, Nat.div_one]; omega
    simp only [List.getElem_cons_zero, this, show n < 253 by assumption, if_true, Dec.pure_run,
      List.length_cons, List.length_nil, Nat.zero_add]
  · simp only [if_neg h1] at h ⊢
    by_cases h2 : n ≤ 0xffff
    · simp only [if_pos h2] at h ⊢
      simp only [List.cons_append, List.nil_append] at h
      have h' := drop_cons_add h
      rw [Dec.bind_ok (peekByte_drop h 0 (by simp)), Dec.bind_ok (advance_run _ _ _)]
      simp only [List.getElem_cons_zero]
      have e : (253 : UInt8).toNat = 253 := rfl
      simp only [e, show ¬ (253 < 253) by omega, if_false]
      unfold readExtendedVarNumber
      simp only [if_true]
      rw [Dec.bind_ok (peekByte_drop h' 0 (by simp)), Dec.bind_ok (peekByte_drop h' 1 (by simp)),
        Dec.bind_ok (advance_run _ _ _)]
      simp only [List.getElem_cons_zero, List.getElem_cons_succ, byteAtShift_toNat,
        Nat.shiftLeft_eq, Dec.pure_run, List.length_cons, List.length_nil]
      simp only [Except.ok.injEq, Prod.mk.injEq, Nat.reducePow, Nat.div_one, and_true]
      first | omega | (and_intros <;> omega)
    · simp only [if_neg h2] at h ⊢
      by_cases h3 : n ≤ 0xffffffff
      · simp only [if_pos h3] at h ⊢
        simp only [List.cons_append, List.nil_append] at h
        have h' := drop_cons_add h
        rw [Dec.bind_ok (peekByte_drop h 0 (by simp)), Dec.bind_ok (advance_run _ _ _)]
        simp only [List.getElem_cons_zero]
        have e : (254 : UInt8).toNat = 254 := rfl
        simp only [e, show ¬ (254 < 253) by omega, if_false]
        unfold readExtendedVarNumber
        simp only [show ¬ (254 = 253) by omega, if_false, if_true]
        rw [Dec.bind_ok (peekByte_drop h' 0 (by simp)), Dec.bind_ok (peekByte_drop h' 1 (by simp)),
          Dec.bind_ok (peekByte_drop h' 2 (by simp)), Dec.bind_ok (peekByte_drop h' 3 (by simp)),
          Dec.bind_ok (advance_run _ _ _)]
        simp only [List.getElem_cons_zero, List.getElem_cons_succ, byteAtShift_toNat,
          Nat.shiftLeft_eq, Dec.pure_run, List.length_cons, List.length_nil]
        simp only [Except.ok.injEq, Prod.mk.injEq, Nat.reducePow, Nat.div_one, and_true]
        first | omega | (and_intros <;> omega)
      · simp only [if_neg h3] at h ⊢
        simp only [List.cons_append, List.nil_append] at h
        have h' := drop_cons_add h
        rw [Dec.bind_ok (peekByte_drop h 0 (by simp)), Dec.bind_ok (advance_run _ _ _)]
        simp only [List.getElem_cons_zero]
        have e : (255 : UInt8).toNat = 255 := rfl
        simp only [e, show ¬ (255 < 253) by omega, if_false]
        unfold readExtendedVarNumber
        simp only [show ¬ (255 = 253) by omega, show ¬ (255 = 254) by omega, if_false]
        rw [Dec.bind_ok (peekByte_drop h' 0 (by simp)), Dec.bind_ok (peekByte_drop h' 1 (by simp)),
          Dec.bind_ok (peekByte_drop h' 2 (by simp)), Dec.bind_ok (peekByte_drop h' 3 (by simp)),
          Dec.bind_ok (peekByte_drop h' 4 (by simp)), Dec.bind_ok (peekByte_drop h' 5 (by simp)),
          Dec.bind_ok (peekByte_drop h' 6 (by simp)), Dec.bind_ok (peekByte_drop h' 7 (by simp)),
          Dec.bind_ok (advance_run _ _ _)]
        simp only [List.getElem_cons_zero, List.getElem_cons_succ, byteAtShift_toNat,
          Nat.shiftLeft_eq, Dec.pure_run, List.length_cons, List.length_nil]
        simp only [Except.ok.injEq, Prod.mk.injEq, Nat.reducePow, Nat.div_one, and_true]
        first | omega | (and_intros <;> omega)

/-- Reading back a non-negative integer of the length that was written. -/
theorem readNonNegativeInteger_drop {inp rest : Bytes} {off n : Nat} (hn : n < 2 ^ 64)
    (h : inp.drop off = nonNegIntBytes n ++ rest) :
    (readNonNegativeInteger (nonNegIntBytes n).length).run inp off
      = .ok (n, off + (nonNegIntBytes n).length) := by
  unfold readNonNegativeInteger
  apply catchIndex_ok
  unfold nonNegIntBytes at *
  by_cases h1 : n ≤ 0xff
  · simp only [if_pos h1] at h ⊢
    simp only [List.cons_append, List.nil_append] at h
    simp only [List.length_cons, List.length_nil, Nat.zero_add, if_true]
    rw [Dec.bind_ok (peekByte_drop h 0 (by simp)), Dec.bind_ok (advance_run _ _ _)]
    simp only [List.getElem_cons_zero, byteAtShift_toNat, Dec.pure_run]
    simp only [Except.ok.injEq, Prod.mk.injEq, Nat.reducePow, Nat.div_one, and_true]
    first | omega | (and_intros <;> omega)
  · simp only [if_neg h1] at h ⊢
    by_cases h2 : n ≤ 0xffff
    · simp only [if_pos h2] at h ⊢
      simp only [List.cons_append, List.nil_append] at h
      simp only [List.length_cons, List.length_nil, Nat.zero_add]
      simp only [show ¬ (1 + 1 = 1) by omega, if_false, if_true]
      rw [Dec.bind_ok (peekByte_drop h 0 (by simp)), Dec.bind_ok (peekByte_drop h 1 (by simp)),
        Dec.bind_ok (advance_run _ _ _)]
      simp only [List.getElem_cons_zero, List.getElem_cons_succ, byteAtShift_toNat,
        Nat.shiftLeft_eq, Dec.pure_run]
      simp only [Except.ok.injEq, Prod.mk.injEq, Nat.reducePow, Nat.div_one, and_true]
      first | omega | (and_intros <;> omega)
    · simp only [if_neg h2] at h ⊢
      by_cases h3 : n ≤ 0xffffffff
      · simp only [if_pos h3] at h ⊢
        simp only [List.cons_append, List.nil_append] at h
        simp only [List.length_cons, List.length_nil, Nat.zero_add, Nat.reduceAdd, Nat.reduceEqDiff,
          if_false, if_true]
        rw [Dec.bind_ok (peekByte_drop h 0 (by simp)), Dec.bind_ok (peekByte_drop h 1 (by simp)),
          Dec.bind_ok (peekByte_drop h 2 (by simp)), Dec.bind_ok (peekByte_drop h 3 (by simp)),
          Dec.bind_ok (advance_run _ _ _)]
        simp only [List.getElem_cons_zero, List.getElem_cons_succ, byteAtShift_toNat,
          Nat.shiftLeft_eq, Dec.pure_run]
        simp only [Except.ok.injEq, Prod.mk.injEq, Nat.reducePow, Nat.div_one, and_true]
        first | omega | (and_intros <;> omega)
      · simp only [if_neg h3] at h ⊢
        simp only [List.cons_append, List.nil_append] at h
        simp only [List.length_cons, List.length_nil, Nat.zero_add, Nat.reduceAdd, Nat.reduceEqDiff,
          if_false, if_true]
        rw [Dec.bind_ok (peekByte_drop h 0 (by simp)), Dec.bind_ok (peekByte_drop h 1 (by simp)),
          Dec.bind_ok (peekByte_drop h 2 (by simp)), Dec.bind_ok (peekByte_drop h 3 (by simp)),
          Dec.bind_ok (peekByte_drop h 4 (by simp)), Dec.bind_ok (peekByte_drop h 5 (by simp)),
          Dec.bind_ok (peekByte_drop h 6 (by simp)), Dec.bind_ok (peekByte_drop h 7 (by simp)),
          Dec.bind_ok (advance_run _ _ _)]
        simp only [List.getElem_cons_zero, List.getElem_cons_succ, byteAtShift_toNat,
          Nat.shiftLeft_eq, Dec.pure_run]
        simp only [Except.ok.injEq, Prod.mk.injEq, Nat.reducePow, Nat.div_one, and_true]
        first | omega | (and_intros <;> omega)

theorem nonNegIntBytes_length_lt (n : Nat) : (nonNegIntBytes n).length ≤ 8 := by
  unfold nonNegIntBytes; repeat' split
  all_goals simp

theorem nonNegIntBytes_length_pos (n : Nat) : 0 < (nonNegIntBytes n).length := by
  unfold nonNegIntBytes; repeat' split
  all_goals simp

end PyNDN
