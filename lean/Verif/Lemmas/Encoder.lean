import Verif.Lemmas.Tlv
/-
Helper lemmas: the buffer level encoder refines the byte-list level.
-/
namespace PyNDN

/-- The bytes written so far to encoder `e` are `out`, and its buffer is not empty. -/
structure Rep (e : LowEnc) (out : Bytes) : Prop where
  len : e.length = out.length
  cap : 0 < e.array.length
  fits : e.length ≤ e.array.length
  out : e.getOutput = out

theorem ensureLengthFromBack_length_ge (a : DynArray) (n : Nat) (ha : 0 < a.length) :
    a.length ≤ (ensureLengthFromBack a n).length ∧ n ≤ (ensureLengthFromBack a n).length := by
  unfold ensureLengthFromBack assignBack
  split
  · omega
  · rw [if_neg (by omega)]
    simp only [List.length_append, List.length_take, List.length_replicate]
    split <;> omega

/-- Growing keeps the bytes at the back. -/
theorem ensureLengthFromBack_drop (a : DynArray) (n k : Nat) (ha : 0 < a.length) (hk : k ≤ a.length) :
    (ensureLengthFromBack a n).drop ((ensureLengthFromBack a n).length - k) = a.drop (a.length - k) := by
  have h1 := ensureLengthFromBack_length_ge a n ha
  revert h1
  unfold ensureLengthFromBack assignBack
  split
  · simp
  · rw [if_neg (by omega)]
    intro h1
    rw [List.drop_append]
    simp only [List.length_append, List.length_take, List.length_replicate] at h1 ⊢
    rw [List.drop_eq_nil_of_le]
    · simp only [List.nil_append]; congr 1; omega
    · simp only [List.length_take, List.length_replicate]; omega

theorem storeFront_ok (bs : Bytes) : ∀ (a : Bytes) (len : Nat), len ≤ a.length → bs.length ≤ len →
    storeFront a len bs
      = .ok (a.take (a.length - len) ++ bs ++ a.drop (a.length - len + bs.length)) := by
  induction bs with
  | nil => intro a len _ _; simp [storeFront]
  | cons b bs ih =>
    intro a len h1 h2
    simp only [List.length_cons] at h2
    have h3 : len ≤ a.length ∧ len ≠ 0 := ⟨h1, by omega⟩
    have hset : setBack a len b = .ok (a.set (a.length - len) b) := by
      unfold setBack; rw [if_pos h3]
    simp only [storeFront, hset, bind, Except.bind]
    rw [ih _ _ (by simp; omega) (by omega)]
    simp only [List.length_set, List.length_cons]
    congr 1
    have e1 : a.length - (len - 1) = a.length - len + 1 := by omega
    rw [e1]
    have hlt : a.length - len < a.length := by omega
    rw [List.drop_set_of_lt (by omega)]
    have e2 : (a.set (a.length - len) b).take (a.length - len + 1)
        = a.take (a.length - len) ++ [b] := by
      rw [List.take_add_one, List.take_set_of_le (by omega)]
      simp [hlt]
    rw [e2]
    simp only [List.append_assoc, List.cons_append, List.nil_append]
    congr 2
    congr 1
    congr 1; omega

theorem put_rep {e : LowEnc} {out : Bytes} (h : Rep e out) (bs : Bytes) :
    ∃ e', e.put bs = .ok e' ∧ Rep e' (bs ++ out) := by
  have hl := ensureLengthFromBack_length_ge e.array (e.length + bs.length) h.cap
  have hd := ensureLengthFromBack_drop e.array (e.length + bs.length) e.length h.cap h.fits
  have hcap := h.cap
  have hout := h.out
  unfold LowEnc.getOutput at hout
  rw [hout] at hd
  unfold LowEnc.put
  simp only [bind, Except.bind]
  rw [storeFront_ok _ _ _ hl.2 (by omega)]
  refine ⟨_, rfl, ?_, ?_, ?_, ?_⟩
  · simp [h.len]; omega
  · simp only [List.length_append, List.length_take, List.length_drop]; omega
  · simp only [List.length_append, List.length_take, List.length_drop]; omega
  · unfold LowEnc.getOutput
    simp only
    generalize ensureLengthFromBack e.array (e.length + bs.length) = a at hl hd ⊢
    have e1 : a.length - (e.length + bs.length) + bs.length = a.length - e.length := by omega
    rw [e1, hd, List.append_assoc, List.drop_append, List.drop_eq_nil_of_le]
    · simp only [List.nil_append, List.length_append, List.length_take]
      rw [← h.len]
      rw [show min (a.length - (e.length + bs.length)) a.length + (bs.length + e.length)
          - (e.length + bs.length) - min (a.length - (e.length + bs.length)) a.length = 0 by omega]
      rfl
    · simp only [List.length_append, List.length_take]
      rw [← h.len]; omega

theorem writeBuffer_rep {e : LowEnc} {out : Bytes} (h : Rep e out) (b : Option Bytes) :
    Rep (e.writeBuffer b) (writeBuffer b out) := by
  cases b with
  | none => exact h
  | some bs =>
    have hl := ensureLengthFromBack_length_ge e.array (e.length + bs.length) h.cap
    have hd := ensureLengthFromBack_drop e.array (e.length + bs.length) e.length h.cap h.fits
    have hcap := h.cap
    have hout := h.out
    unfold LowEnc.getOutput at hout
    rw [hout] at hd
    unfold LowEnc.writeBuffer writeBuffer copyFromBack sliceAssign
    refine ⟨?_, ?_, ?_, ?_⟩
    · simp [h.len]; omega
    · simp only [List.length_append, List.length_take, List.length_drop]; omega
    · simp only [List.length_append, List.length_take, List.length_drop]; omega
    · unfold LowEnc.getOutput
      simp only
      generalize ensureLengthFromBack e.array (e.length + bs.length) = a at hl hd ⊢
      have e1 : a.length - (e.length + bs.length) + bs.length = a.length - e.length := by omega
      rw [e1, hd, List.append_assoc, List.drop_append, List.drop_eq_nil_of_le]
      · simp only [List.nil_append, List.length_append, List.length_take]
        rw [← h.len]
        rw [show min (a.length - (e.length + bs.length)) a.length + (bs.length + e.length)
            - (e.length + bs.length) - min (a.length - (e.length + bs.length)) a.length = 0 by omega]
        rfl
      · simp only [List.length_append, List.length_take]
        rw [← h.len]; omega

theorem new_rep {cap : Nat} (h : 0 < cap) : Rep (LowEnc.new cap) [] := by
  refine ⟨rfl, by simpa [LowEnc.new], by simp [LowEnc.new], ?_⟩
  simp [LowEnc.new, LowEnc.getOutput]

theorem writeVarNumber_rep {e out} (h : Rep e out) (n : Nat) :
    ∃ e', e.writeVarNumber n = .ok e' ∧ Rep e' (writeVarNumber n out) := put_rep h _

theorem writeTypeAndLength_rep {e out} (h : Rep e out) (t l : Nat) :
    ∃ e', e.writeTypeAndLength t l = .ok e' ∧ Rep e' (writeTypeAndLength t l out) := by
  obtain ⟨e1, h1, r1⟩ := writeVarNumber_rep h l
  obtain ⟨e2, h2, r2⟩ := writeVarNumber_rep r1 t
  refine ⟨e2, ?_, r2⟩
  simp only [LowEnc.writeTypeAndLength, h1, bind, Except.bind, h2]

/-- The outcome of a buffer-level write agrees with the outcome of the byte-list write. -/
def RepR (r : Except Err LowEnc) (s : Except Err Bytes) : Prop :=
  match r, s with
  | .ok e, .ok out => Rep e out
  | .error x, .error y => x = y
  | _, _ => False

theorem writeNonNegativeInteger_rep {e out} (h : Rep e out) (v : Int) :
    RepR (e.writeNonNegativeInteger v) (writeNonNegativeInteger v out) := by
  unfold LowEnc.writeNonNegativeInteger writeNonNegativeInteger
  split
  · exact rfl
  · obtain ⟨e', h1, r⟩ := put_rep h (nonNegIntBytes v.toNat)
    rw [h1]; exact r

theorem writeNonNegativeIntegerTlv_rep {e out} (h : Rep e out) (t : Nat) (v : Int) :
    RepR (e.writeNonNegativeIntegerTlv t v) (writeNonNegativeIntegerTlv t v out) := by
  have h1 := writeNonNegativeInteger_rep h v
  unfold LowEnc.writeNonNegativeIntegerTlv writeNonNegativeIntegerTlv
  simp only [bind, Except.bind]
  cases h2 : e.writeNonNegativeInteger v with
  | error x =>
    rw [h2] at h1
    cases h3 : writeNonNegativeInteger v out with
    | error y => rw [h3] at h1; exact h1
    | ok o => rw [h3] at h1; exact h1.elim
  | ok e' =>
    rw [h2] at h1
    cases h3 : writeNonNegativeInteger v out with
    | error y => rw [h3] at h1; exact h1.elim
    | ok o =>
      rw [h3] at h1
      have h1 : Rep e' o := h1
      obtain ⟨e2, h4, r⟩ := writeTypeAndLength_rep h1 t (e'.length - e.length)
      simp only [h4]
      rw [h1.len, h.len] at r
      exact r

end PyNDN
