import Verif.Lemmas.Tlv
/-
Helper lemmas: exactly when the reads succeed (inversion).
-/
namespace PyNDN
open Spec (VarNumForm Element Elements be)

theorem Dec.bind_eq_ok {m : Dec α} {f : α → Dec β} {inp : Bytes} {off : Nat} {r : β × Nat} :
    (m >>= f).run inp off = .ok r ↔
      ∃ a off', m.run inp off = .ok (a, off') ∧ (f a).run inp off' = .ok r := by
  rw [Dec.bind_def]
  cases h : m.run inp off with
  | error e => simp
  | ok p =>
    obtain ⟨a, o⟩ := p
    constructor
    · intro h'; exact ⟨a, o, rfl, h'⟩
    · rintro ⟨a', o', h1, h2⟩
      cases h1; exact h2

theorem Dec.bind_eq_error {m : Dec α} {f : α → Dec β} {inp : Bytes} {off : Nat} {e : Err} :
    (m >>= f).run inp off = .error e ↔ m.run inp off = .error e ∨
      ∃ a off', m.run inp off = .ok (a, off') ∧ (f a).run inp off' = .error e := by
  rw [Dec.bind_def]
  cases h : m.run inp off with
  | error e => simp
  | ok p =>
    obtain ⟨a, o⟩ := p
    constructor
    · intro h'; exact Or.inr ⟨a, o, rfl, h'⟩
    · rintro (h1 | ⟨a', o', h1, h2⟩)
      · cases h1
      · cases h1; exact h2

theorem catchIndex_eq_ok {m : Dec α} {inp : Bytes} {off : Nat} {r : α × Nat} :
    (catchIndex m).run inp off = .ok r ↔ m.run inp off = .ok r := by
  unfold catchIndex
  simp only
  cases h : m.run inp off <;> simp

theorem peekByte_eq_ok {i n o : Nat} {inp : Bytes} {off : Nat} :
    (peekByte i).run inp off = .ok (n, o) ↔
      ∃ b, inp[off + i]? = some b ∧ n = b.toNat ∧ o = off := by
  unfold peekByte
  simp only
  cases h : inp[off + i]? with
  | none => simp
  | some b =>
    simp only [Except.ok.injEq, Prod.mk.injEq, Option.some.injEq, exists_eq_left']
    constructor <;> rintro ⟨h1, h2⟩ <;> exact ⟨h1.symm, h2.symm⟩

theorem getElem?_drop_cons {inp : Bytes} {off : Nat} {b : UInt8} (h : inp[off]? = some b) :
    inp.drop off = b :: inp.drop (off + 1) := by
  obtain ⟨hlt, hb⟩ := List.getElem?_eq_some_iff.mp h
  rw [List.drop_eq_getElem_cons hlt, hb]

theorem be2_of (a b : UInt8) : be 2 ((a.toNat <<< 8) + b.toNat) = [a, b] := by
  have ha := a.toNat_lt; have hb := b.toNat_lt
  simp only [be, List.nil_append, List.cons_append, List.cons.injEq, and_true, Nat.shiftLeft_eq]
  constructor <;> apply UInt8.toNat_inj.mp <;> simp only [UInt8.toNat_ofNat'] <;> omega

theorem be4_of (a b c d : UInt8) :
    be 4 ((a.toNat <<< 24) + (b.toNat <<< 16) + (c.toNat <<< 8) + d.toNat) = [a, b, c, d] := by
  have ha := a.toNat_lt; have hb := b.toNat_lt; have hc := c.toNat_lt; have hd := d.toNat_lt
  simp only [be, List.nil_append, List.cons_append, List.cons.injEq, and_true, Nat.shiftLeft_eq,
    Nat.div_div_eq_div_mul, Nat.reduceMul, Nat.reducePow]
  and_intros <;> apply UInt8.toNat_inj.mp <;> simp only [UInt8.toNat_ofNat'] <;> omega

theorem be8_of (a b c d e f g h : UInt8) :
    be 8 ((a.toNat <<< 56) + (b.toNat <<< 48) + (c.toNat <<< 40) + (d.toNat <<< 32)
      + (e.toNat <<< 24) + (f.toNat <<< 16) + (g.toNat <<< 8) + h.toNat)
      = [a, b, c, d, e, f, g, h] := by
  have ha := a.toNat_lt; have hb := b.toNat_lt; have hc := c.toNat_lt; have hd := d.toNat_lt
  have he := e.toNat_lt; have hf := f.toNat_lt; have hg := g.toNat_lt; have hh := h.toNat_lt
  simp only [be, List.nil_append, List.cons_append, List.cons.injEq, and_true, Nat.shiftLeft_eq,
    Nat.div_div_eq_div_mul, Nat.reduceMul, Nat.reducePow]
  and_intros <;> apply UInt8.toNat_inj.mp <;> simp only [UInt8.toNat_ofNat'] <;> omega

/-- What a successful VAR-NUMBER read found in the input. -/
theorem readVarNumber_inv {inp : Bytes} {off n off' : Nat}
    (h : readVarNumber.run inp off = .ok (n, off')) :
    ∃ bs, VarNumForm n bs ∧ inp.drop off = bs ++ inp.drop off' ∧ off' = off + bs.length := by
  unfold readVarNumber at h
  rw [catchIndex_eq_ok, Dec.bind_eq_ok] at h
  obtain ⟨f, o1, h1, h⟩ := h
  obtain ⟨b, hb, rfl, rfl⟩ := peekByte_eq_ok.mp h1
  have hb := getElem?_drop_cons (by simpa using hb)
  rw [Dec.bind_ok (advance_run _ _ _)] at h
  have hlt := b.toNat_lt
  split at h
  · next hs =>
    cases h
    refine ⟨[b], Or.inl ⟨hs, ?_⟩, hb, rfl⟩
    simp [be]
  · next hs =>
    unfold readExtendedVarNumber at h
    split at h
    · next h253 =>
      simp only [Dec.bind_eq_ok, peekByte_eq_ok] at h
      obtain ⟨_, _, ⟨b0, h0, rfl, rfl⟩, _, _, ⟨b1, h1, rfl, rfl⟩, _, _, h2, h⟩ := h
      cases h2; cases h
      have e0 := getElem?_drop_cons h0
      have e1 := getElem?_drop_cons h1
      refine ⟨[b, b0, b1], Or.inr (Or.inl ⟨?_, ?_⟩), ?_, ?_⟩
      · have := b0.toNat_lt; have := b1.toNat_lt; simp only [Nat.shiftLeft_eq]; omega
      · rw [be2_of, show b = 253 from UInt8.toNat_inj.mp h253]
      · simp only [Nat.add_zero, Nat.add_assoc, Nat.reduceAdd] at e0 e1 hb ⊢
        rw [hb, e0, e1]; rfl
      · simp
    · split at h
      · next h254 =>
        simp only [Dec.bind_eq_ok, peekByte_eq_ok] at h
        obtain ⟨_, _, ⟨b0, h0, rfl, rfl⟩, _, _, ⟨b1, h1, rfl, rfl⟩, _, _, ⟨b2, h2, rfl, rfl⟩,
          _, _, ⟨b3, h3, rfl, rfl⟩, _, _, ha, h⟩ := h
        cases ha; cases h
        have e0 := getElem?_drop_cons h0
        have e1 := getElem?_drop_cons h1
        have e2 := getElem?_drop_cons h2
        have e3 := getElem?_drop_cons h3
        refine ⟨[b, b0, b1, b2, b3], Or.inr (Or.inr (Or.inl ⟨?_, ?_⟩)), ?_, ?_⟩
        · have := b0.toNat_lt; have := b1.toNat_lt; have := b2.toNat_lt; have := b3.toNat_lt
          simp only [Nat.shiftLeft_eq]; omega
        · rw [be4_of, show b = 254 from UInt8.toNat_inj.mp h254]
        · simp only [Nat.add_zero, Nat.add_assoc, Nat.reduceAdd] at e0 e1 e2 e3 hb ⊢
          rw [hb, e0, e1, e2, e3]; rfl
        · simp
      · next h253 h254 =>
        simp only [Dec.bind_eq_ok, peekByte_eq_ok] at h
        obtain ⟨_, _, ⟨b0, h0, rfl, rfl⟩, _, _, ⟨b1, h1, rfl, rfl⟩, _, _, ⟨b2, h2, rfl, rfl⟩,
          _, _, ⟨b3, h3, rfl, rfl⟩, _, _, ⟨b4, h4, rfl, rfl⟩, _, _, ⟨b5, h5, rfl, rfl⟩,
          _, _, ⟨b6, h6, rfl, rfl⟩, _, _, ⟨b7, h7, rfl, rfl⟩, _, _, ha, h⟩ := h
        cases ha; cases h
        have e0 := getElem?_drop_cons h0
        have e1 := getElem?_drop_cons h1
        have e2 := getElem?_drop_cons h2
        have e3 := getElem?_drop_cons h3
        have e4 := getElem?_drop_cons h4
        have e5 := getElem?_drop_cons h5
        have e6 := getElem?_drop_cons h6
        have e7 := getElem?_drop_cons h7
        refine ⟨[b, b0, b1, b2, b3, b4, b5, b6, b7], Or.inr (Or.inr (Or.inr ⟨?_, ?_⟩)), ?_, ?_⟩
        · have := b0.toNat_lt; have := b1.toNat_lt; have := b2.toNat_lt; have := b3.toNat_lt
          have := b4.toNat_lt; have := b5.toNat_lt; have := b6.toNat_lt; have := b7.toNat_lt
          simp only [Nat.shiftLeft_eq]; omega
        · rw [be8_of, show b = 255 from UInt8.toNat_inj.mp (by show b.toNat = 255; omega)]
        · simp only [Nat.add_zero, Nat.add_assoc, Nat.reduceAdd] at e0 e1 e2 e3 e4 e5 e6 e7 hb ⊢
          rw [hb, e0, e1, e2, e3, e4, e5, e6, e7]; rfl
        · simp

theorem varNumForm_pos {n : Nat} {bs : Bytes} (h : VarNumForm n bs) : 0 < bs.length := by
  rcases h with ⟨_, rfl⟩ | ⟨_, rfl⟩ | ⟨_, rfl⟩ | ⟨_, rfl⟩ <;> simp [be]

theorem varNumForm_lt {n : Nat} {bs : Bytes} (h : VarNumForm n bs) : n < 2 ^ 64 := by
  rcases h with ⟨_, rfl⟩ | ⟨_, rfl⟩ | ⟨_, rfl⟩ | ⟨_, rfl⟩ <;> omega

/-- Any form of a VAR-NUMBER is read. -/
theorem readVarNumber_form {inp rest bs : Bytes} {off n : Nat} (hf : VarNumForm n bs)
    (h : inp.drop off = bs ++ rest) :
    readVarNumber.run inp off = .ok (n, off + bs.length) := by
  unfold readVarNumber
  apply catchIndex_ok
  rcases hf with ⟨hn, rfl⟩ | ⟨hn, rfl⟩ | ⟨hn, rfl⟩ | ⟨hn, rfl⟩
  · simp only [be, List.nil_append, List.cons_append] at h
    rw [Dec.bind_ok (peekByte_drop h 0 (by simp)), Dec.bind_ok (advance_run _ _ _)]
    have : (UInt8.ofNat n).toNat = n := by simp only [UInt8.toNat_ofNat']; omega
    simp only [List.getElem_cons_zero, this, hn, if_true, Dec.pure_run, be, List.nil_append,
      List.length_cons, List.length_nil]
  · simp only [be, List.nil_append, List.cons_append] at h
    have h' := drop_cons_add h
    rw [Dec.bind_ok (peekByte_drop h 0 (by simp)), Dec.bind_ok (advance_run _ _ _)]
    simp only [List.getElem_cons_zero]
    have e : (253 : UInt8).toNat = 253 := rfl
    simp only [e, show ¬ (253 < 253) by omega, if_false]
    unfold readExtendedVarNumber
    simp only [if_true]
    rw [Dec.bind_ok (peekByte_drop h' 0 (by simp)), Dec.bind_ok (peekByte_drop h' 1 (by simp)),
      Dec.bind_ok (advance_run _ _ _)]
    simp only [List.getElem_cons_zero, List.getElem_cons_succ, UInt8.toNat_ofNat',
      Nat.shiftLeft_eq, Dec.pure_run, be, List.nil_append, List.cons_append, List.length_cons,
      List.length_nil, Except.ok.injEq, Prod.mk.injEq, Nat.reducePow, and_true]
    omega
  · simp only [be, List.nil_append, List.cons_append] at h
    have h' := drop_cons_add h
    rw [Dec.bind_ok (peekByte_drop h 0 (by simp)), Dec.bind_ok (advance_run _ _ _)]
    simp only [List.getElem_cons_zero]
    have e : (254 : UInt8).toNat = 254 := rfl
    simp only [e, show ¬ (254 < 253) by omega, if_false]
    unfold readExtendedVarNumber
    simp only [show ¬ (254 = 253) by omega, if_false, if_true]
    rw [Dec.bind_ok (peekByte_drop h' 0 (by simp)), Dec.bind_ok (peekByte_drop h' 1 (by simp)),
      Dec.bind_ok (peekByte_drop h' 2 (by simp)), Dec.bind_ok (peekByte_drop h' 3 (by simp)),
      Dec.bind_ok (advance_run _ _ _)]
    simp only [List.getElem_cons_zero, List.getElem_cons_succ, UInt8.toNat_ofNat',
      Nat.shiftLeft_eq, Dec.pure_run, be, List.nil_append, List.cons_append, List.length_cons,
      List.length_nil, Except.ok.injEq, Prod.mk.injEq, Nat.reducePow, and_true]
    omega
  · simp only [be, List.nil_append, List.cons_append] at h
    have h' := drop_cons_add h
    rw [Dec.bind_ok (peekByte_drop h 0 (by simp)), Dec.bind_ok (advance_run _ _ _)]
    simp only [List.getElem_cons_zero]
    have e : (255 : UInt8).toNat = 255 := rfl
    simp only [e, show ¬ (255 < 253) by omega, if_false]
    unfold readExtendedVarNumber
    simp only [show ¬ (255 = 253) by omega, show ¬ (255 = 254) by omega, if_false]
    rw [Dec.bind_ok (peekByte_drop h' 0 (by simp)), Dec.bind_ok (peekByte_drop h' 1 (by simp)),
      Dec.bind_ok (peekByte_drop h' 2 (by simp)), Dec.bind_ok (peekByte_drop h' 3 (by simp)),
      Dec.bind_ok (peekByte_drop h' 4 (by simp)), Dec.bind_ok (peekByte_drop h' 5 (by simp)),
      Dec.bind_ok (peekByte_drop h' 6 (by simp)), Dec.bind_ok (peekByte_drop h' 7 (by simp)),
      Dec.bind_ok (advance_run _ _ _)]
    simp only [List.getElem_cons_zero, List.getElem_cons_succ, UInt8.toNat_ofNat',
      Nat.shiftLeft_eq, Dec.pure_run, be, List.nil_append, List.cons_append, List.length_cons,
      List.length_nil, Except.ok.injEq, Prod.mk.injEq, Nat.reducePow, and_true]
    omega

/-! ### finishNestedTlvs -/

/-- The types that `finishNestedTlvs` may skip. -/
def Skippable (skipCritical : Bool) (t : Nat) : Prop := skipCritical = true ∨ ¬ Spec.critical t

theorem isCritical_iff (t : Nat) : isCritical t = true ↔ Spec.critical t := by
  unfold isCritical Spec.critical
  have : t &&& 1 = t % 2 := Nat.and_one_is_mod t
  simp [this]

theorem critical_and_iff (t : Nat) (sc : Bool) :
    (isCritical t && !sc) = true ↔ ¬ Skippable sc t := by
  unfold Skippable
  rw [← isCritical_iff]
  cases isCritical t <;> cases sc <;> simp

theorem skipUnrecognized_inv {inp : Bytes} {off off' : Nat} {sc : Bool}
    (h : (skipUnrecognized sc).run inp off = .ok ((), off')) :
    ∃ t v bs, Element t v bs ∧ Skippable sc t ∧ inp.drop off = bs ++ inp.drop off' ∧
      off' = off + bs.length ∧ off' ≤ inp.length := by
  unfold skipUnrecognized at h
  obtain ⟨t, o1, h1, h⟩ := Dec.bind_eq_ok.mp h
  obtain ⟨tb, ht, hd1, rfl⟩ := readVarNumber_inv h1
  split at h
  · cases h
  · next hc =>
    rw [critical_and_iff, Classical.not_not] at hc
    obtain ⟨l, o2, h2, h⟩ := Dec.bind_eq_ok.mp h
    obtain ⟨lb, hl, hd2, rfl⟩ := readVarNumber_inv h2
    rw [Dec.bind_ok (advance_run _ _ _), Dec.bind_ok (getOffset_run _ _),
      Dec.bind_ok (inputLen_run _ _)] at h
    split at h
    · cases h
    · next hle =>
      cases h
      refine ⟨t, (inp.drop (off + tb.length + lb.length)).take l,
        tb ++ lb ++ (inp.drop (off + tb.length + lb.length)).take l,
        ⟨tb, lb, ht, ?_, rfl⟩, hc, ?_, ?_, by omega⟩
      · have : ((inp.drop (off + tb.length + lb.length)).take l).length = l := by
          simp only [List.length_take, List.length_drop]; omega
        rwa [this]
      · rw [hd1, hd2, List.append_assoc, List.append_assoc, ← List.drop_drop (i := l),
          List.take_append_drop]
      · simp only [List.length_append, List.length_take, List.length_drop]; omega

theorem skipUnrecognized_element {inp bs v rest : Bytes} {off t : Nat} {sc : Bool}
    (he : Element t v bs) (hs : Skippable sc t) (h : inp.drop off = bs ++ rest) :
    (skipUnrecognized sc).run inp off = .ok ((), off + bs.length) := by
  obtain ⟨tb, lb, ht, hl, rfl⟩ := he
  have hpos := varNumForm_pos ht
  have hlen := drop_len h (by intro hh; simp at hh; simp [hh] at hpos)
  simp only [List.append_assoc] at h
  unfold skipUnrecognized
  rw [Dec.bind_ok (readVarNumber_form ht h)]
  rw [if_neg (by rw [critical_and_iff, Classical.not_not]; exact hs)]
  rw [Dec.bind_ok (readVarNumber_form hl (drop_add h)), Dec.bind_ok (advance_run _ _ _),
      Dec.bind_ok (getOffset_run _ _), Dec.bind_ok (inputLen_run _ _)]
  simp only [List.length_append] at hlen
  rw [if_neg (by omega)]
  simp only [Dec.pure_run, List.length_append, Nat.add_assoc]

theorem element_pos {t : Nat} {v bs : Bytes} (h : Element t v bs) : 0 < bs.length := by
  obtain ⟨tb, lb, ht, hl, rfl⟩ := h
  have := varNumForm_pos ht
  simp only [List.length_append]; omega

theorem finishLoop_inv {inp : Bytes} {e : Nat} {sc : Bool} (fuel : Nat) :
    ∀ {off off' : Nat}, (finishLoop e sc fuel).run inp off = .ok ((), off') →
    ∃ bs, Elements (Skippable sc) bs ∧ inp.drop off = bs ++ inp.drop off' ∧
      off' = off + bs.length ∧ (off < e → off' ≤ inp.length) := by
  induction fuel with
  | zero =>
    intro off off' h
    unfold finishLoop at h
    rw [Dec.bind_ok (getOffset_run _ _)] at h
    split at h
    · cases h
    · cases h; exact ⟨[], Elements.nil, rfl, rfl, by omega⟩
  | succ fuel ih =>
    intro off off' h
    unfold finishLoop at h
    rw [Dec.bind_ok (getOffset_run _ _)] at h
    split at h
    · obtain ⟨_, o1, h1, h⟩ := Dec.bind_eq_ok.mp h
      obtain ⟨t, v, b1, he, hs, hd, rfl, hle⟩ := skipUnrecognized_inv h1
      obtain ⟨b2, he2, hd2, rfl, hle2⟩ := ih h
      refine ⟨b1 ++ b2, Elements.cons he hs he2, by rw [hd, hd2, List.append_assoc], ?_, ?_⟩
      · simp [Nat.add_assoc]
      · intro _
        by_cases hc : off + b1.length < e
        · exact hle2 hc
        · -- the loop stopped
          cases fuel <;> unfold finishLoop at h <;> rw [Dec.bind_ok (getOffset_run _ _)] at h <;>
            rw [if_neg hc] at h <;> simp at h <;> simp [h] <;> omega
    · cases h; exact ⟨[], Elements.nil, rfl, rfl, by omega⟩

theorem finishLoop_elements {inp : Bytes} {sc : Bool} {bs : Bytes} (he : Elements (Skippable sc) bs) :
    ∀ {off : Nat} {rest : Bytes} (fuel : Nat), bs.length ≤ fuel → inp.drop off = bs ++ rest →
    (finishLoop (off + bs.length) sc fuel).run inp off = .ok ((), off + bs.length) := by
  induction he with
  | nil =>
    intro off rest fuel _ _
    cases fuel <;> unfold finishLoop <;> rw [Dec.bind_ok (getOffset_run _ _)] <;> simp
  | @cons t v b1 b2 h1 hs h2 ih =>
    intro off rest fuel hf hd
    have hp := element_pos h1
    simp only [List.length_append] at hf ⊢
    cases fuel with
    | zero => omega
    | succ fuel =>
      unfold finishLoop
      rw [Dec.bind_ok (getOffset_run _ _), if_pos (by omega)]
      rw [List.append_assoc] at hd
      rw [Dec.bind_ok (skipUnrecognized_element h1 hs hd)]
      have := ih fuel (by omega) (drop_add hd)
      rwa [Nat.add_assoc] at this

theorem finishNestedTlvs_inv {inp : Bytes} {off e off' : Nat} {sc : Bool}
    (h : (finishNestedTlvs e sc).run inp off = .ok ((), off')) :
    off' = e ∧ ∃ bs, Elements (Skippable sc) bs ∧ inp.drop off = bs ++ inp.drop e ∧
      e = off + bs.length ∧ (off ≤ inp.length → e ≤ inp.length) := by
  unfold finishNestedTlvs at h
  rw [Dec.bind_ok (getOffset_run _ _)] at h
  split at h
  · next heq => cases h; subst heq; exact ⟨rfl, [], Elements.nil, rfl, rfl, fun h => h⟩
  · next hne =>
    obtain ⟨_, o1, h1, h⟩ := Dec.bind_eq_ok.mp h
    obtain ⟨bs, he, hd, hlen, hle⟩ := finishLoop_inv _ h1
    rw [Dec.bind_ok (getOffset_run _ _)] at h
    split at h
    · cases h
    · next heq =>
      cases h
      simp at heq; subst heq
      exact ⟨rfl, bs, he, hd, hlen, fun _ => hle (by omega)⟩

theorem finishNestedTlvs_elements {inp : Bytes} {sc : Bool} {bs rest : Bytes} {off : Nat}
    (he : Elements (Skippable sc) bs) (hd : inp.drop off = bs ++ rest) :
    (finishNestedTlvs (off + bs.length) sc).run inp off = .ok ((), off + bs.length) := by
  unfold finishNestedTlvs
  rw [Dec.bind_ok (getOffset_run _ _)]
  split
  · next h => simp only [Dec.pure_run, Except.ok.injEq, Prod.mk.injEq, true_and]; exact h
  · rw [Dec.bind_ok (finishLoop_elements he _ (by omega) hd), Dec.bind_ok (getOffset_run _ _)]
    simp

end PyNDN
