import Verif.Model.Framing
import Verif.Spec.Framing
import Verif.Lemmas.Read
/-
Lemmas about the structure decoder.
-/
namespace PyNDN
open Spec

/-- The number of bytes of a VAR-NUMBER after the first. -/
def ext (f : UInt8) : Nat := if f.toNat < 253 then 0 else nExtended f.toNat

theorem ext_le (f : UInt8) : ext f ≤ 8 := by
  unfold ext nExtended; repeat' split
  all_goals omega

theorem ext_pos {f : UInt8} (h : ¬ f.toNat < 253) : 0 < ext f := by
  unfold ext nExtended
  rw [if_neg h]; repeat' split
  all_goals omega

theorem readExtendedVarNumber_form {n : Nat} {f : UInt8} {r : Bytes} (hf : VarNumForm n (f :: r))
    (h253 : ¬ f.toNat < 253) {inp rest : Bytes} {off : Nat} (h : inp.drop off = r ++ rest) :
    (readExtendedVarNumber f.toNat).run inp off = .ok (n, off + r.length) := by
  -- put the first octet in front and use the lemma for the whole number
  have hw := readVarNumber_form (inp := f :: inp.drop off) (off := 0) (rest := rest) hf (by simp [h])
  unfold readVarNumber at hw
  rw [catchIndex_eq_ok, Dec.bind_ok (peekByte_drop (bs := f :: inp.drop off) rfl 0 (by simp)),
    Dec.bind_ok (advance_run _ _ _)] at hw
  simp only [List.getElem_cons_zero, if_neg h253] at hw
  have hshift : ∀ i, (f :: inp.drop off)[1 + i]? = inp[off + i]? := by
    intro i; rw [Nat.add_comm 1 i, List.getElem?_cons_succ, List.getElem?_drop]
  have hpeek : ∀ i n o, (peekByte i).run (f :: inp.drop off) 1 = .ok (n, o) →
      (peekByte i).run inp off = .ok (n, off) ∧ o = 1 := by
    intro i n o hp
    rw [peekByte_eq_ok] at hp
    obtain ⟨b, h1, h2, h3⟩ := hp
    rw [hshift] at h1
    exact ⟨peekByte_eq_ok.mpr ⟨b, h1, h2, rfl⟩, h3⟩
  unfold readExtendedVarNumber at hw ⊢
  simp only [List.length_cons] at hw
  have e1 : (0 + 1 : Nat) = 1 := rfl
  rw [e1] at hw
  split at hw
  · rename_i h1
    rw [if_pos h1]
    obtain ⟨b0, o, h0, hw⟩ := Dec.bind_eq_ok.mp hw
    obtain ⟨g0, rfl⟩ := hpeek _ _ _ h0
    obtain ⟨b1, o, h0, hw⟩ := Dec.bind_eq_ok.mp hw
    obtain ⟨g1, rfl⟩ := hpeek _ _ _ h0
    rw [Dec.bind_ok (advance_run _ _ _)] at hw
    rw [Dec.bind_ok g0, Dec.bind_ok g1, Dec.bind_ok (advance_run _ _ _)]
    simp only [Dec.pure_run, Except.ok.injEq, Prod.mk.injEq] at hw ⊢
    omega
  · rename_i h1
    rw [if_neg h1]
    split at hw
    · rename_i h2
      rw [if_pos h2]
      obtain ⟨b0, o, h0, hw⟩ := Dec.bind_eq_ok.mp hw
      obtain ⟨g0, rfl⟩ := hpeek _ _ _ h0
      obtain ⟨b1, o, h0, hw⟩ := Dec.bind_eq_ok.mp hw
      obtain ⟨g1, rfl⟩ := hpeek _ _ _ h0
      obtain ⟨b2, o, h0, hw⟩ := Dec.bind_eq_ok.mp hw
      obtain ⟨g2, rfl⟩ := hpeek _ _ _ h0
      obtain ⟨b3, o, h0, hw⟩ := Dec.bind_eq_ok.mp hw
      obtain ⟨g3, rfl⟩ := hpeek _ _ _ h0
      rw [Dec.bind_ok (advance_run _ _ _)] at hw
      rw [Dec.bind_ok g0, Dec.bind_ok g1, Dec.bind_ok g2, Dec.bind_ok g3, Dec.bind_ok (advance_run _ _ _)]
      simp only [Dec.pure_run, Except.ok.injEq, Prod.mk.injEq] at hw ⊢
      omega
    · rename_i h2
      rw [if_neg h2]
      obtain ⟨b0, o, h0, hw⟩ := Dec.bind_eq_ok.mp hw
      obtain ⟨g0, rfl⟩ := hpeek _ _ _ h0
      obtain ⟨b1, o, h0, hw⟩ := Dec.bind_eq_ok.mp hw
      obtain ⟨g1, rfl⟩ := hpeek _ _ _ h0
      obtain ⟨b2, o, h0, hw⟩ := Dec.bind_eq_ok.mp hw
      obtain ⟨g2, rfl⟩ := hpeek _ _ _ h0
      obtain ⟨b3, o, h0, hw⟩ := Dec.bind_eq_ok.mp hw
      obtain ⟨g3, rfl⟩ := hpeek _ _ _ h0
      obtain ⟨b4, o, h0, hw⟩ := Dec.bind_eq_ok.mp hw
      obtain ⟨g4, rfl⟩ := hpeek _ _ _ h0
      obtain ⟨b5, o, h0, hw⟩ := Dec.bind_eq_ok.mp hw
      obtain ⟨g5, rfl⟩ := hpeek _ _ _ h0
      obtain ⟨b6, o, h0, hw⟩ := Dec.bind_eq_ok.mp hw
      obtain ⟨g6, rfl⟩ := hpeek _ _ _ h0
      obtain ⟨b7, o, h0, hw⟩ := Dec.bind_eq_ok.mp hw
      obtain ⟨g7, rfl⟩ := hpeek _ _ _ h0
      rw [Dec.bind_ok (advance_run _ _ _)] at hw
      rw [Dec.bind_ok g0, Dec.bind_ok g1, Dec.bind_ok g2, Dec.bind_ok g3, Dec.bind_ok g4, Dec.bind_ok g5,
        Dec.bind_ok g6, Dec.bind_ok g7, Dec.bind_ok (advance_run _ _ _)]
      simp only [Dec.pure_run, Except.ok.injEq, Prod.mk.injEq] at hw ⊢
      omega

theorem varNumForm_shape {n : Nat} {bs : Bytes} (h : VarNumForm n bs) :
    ∃ f r, bs = f :: r ∧ r.length = ext f ∧ (f.toNat < 253 → n = f.toNat) := by
  rcases h with ⟨hn, rfl⟩ | ⟨hn, rfl⟩ | ⟨hn, rfl⟩ | ⟨hn, rfl⟩
  · refine ⟨UInt8.ofNat n, [], by simp [be], ?_, fun _ => ?_⟩
    · have : (UInt8.ofNat n).toNat = n := by simp only [UInt8.toNat_ofNat']; omega
      simp [ext, this, hn]
    · simp only [UInt8.toNat_ofNat']; omega
  · exact ⟨253, _, rfl, by simp [be]; decide, fun h => absurd h (by decide)⟩
  · exact ⟨254, _, rfl, by simp [be]; decide, fun h => absurd h (by decide)⟩
  · exact ⟨255, _, rfl, by simp [be]; decide, fun h => absurd h (by decide)⟩

/-- Conversely every such byte string is the form of some number. -/
theorem shape_varNumForm (f : UInt8) (r : Bytes) (h : r.length = ext f) : ∃ n, VarNumForm n (f :: r) := by
  by_cases hf : f.toNat < 253
  · refine ⟨f.toNat, .inl ⟨hf, ?_⟩⟩
    have : r = [] := by
      apply List.length_eq_zero_iff.mp; rw [h, ext, if_pos hf]
    rw [this]; simp [be]
  · have hlt := f.toNat_lt
    unfold ext nExtended at h
    rw [if_neg hf] at h
    by_cases h1 : f.toNat = 253
    · rw [if_pos h1] at h
      match r, h with
      | [b0, b1], _ =>
        refine ⟨(b0.toNat <<< 8) + b1.toNat, .inr (.inl ⟨?_, ?_⟩)⟩
        rotate_left
        · rw [be2_of b0 b1, show f = 253 from UInt8.toNat_inj.mp h1]
        · have := b0.toNat_lt; have := b1.toNat_lt; simp only [Nat.shiftLeft_eq]; omega
    · rw [if_neg h1] at h
      by_cases h2 : f.toNat = 254
      · rw [if_pos h2] at h
        match r, h with
        | [b0, b1, b2, b3], _ =>
          refine ⟨(b0.toNat <<< 24) + (b1.toNat <<< 16) + (b2.toNat <<< 8) + b3.toNat, .inr (.inr (.inl ⟨?_, ?_⟩))⟩
          rotate_left
          · rw [be4_of b0 b1 b2 b3, show f = 254 from UInt8.toNat_inj.mp h2]
          · have := b0.toNat_lt; have := b1.toNat_lt; have := b2.toNat_lt; have := b3.toNat_lt
            simp only [Nat.shiftLeft_eq]; omega
      · rw [if_neg h2] at h
        match r, h with
        | [b0, b1, b2, b3, b4, b5, b6, b7], _ =>
          refine ⟨(b0.toNat <<< 56) + (b1.toNat <<< 48) + (b2.toNat <<< 40) + (b3.toNat <<< 32)
            + (b4.toNat <<< 24) + (b5.toNat <<< 16) + (b6.toNat <<< 8) + b7.toNat,
            .inr (.inr (.inr ⟨?_, ?_⟩))⟩
          rotate_left
          · rw [be8_of b0 b1 b2 b3 b4 b5 b6 b7,
              show f = 255 from UInt8.toNat_inj.mp (by show f.toNat = 255; omega)]
          · have := b0.toNat_lt; have := b1.toNat_lt; have := b2.toNat_lt; have := b3.toNat_lt
            have := b4.toNat_lt; have := b5.toNat_lt; have := b6.toNat_lt; have := b7.toNat_lt
            simp only [Nat.shiftLeft_eq]; omega

/-- The parts of an element. -/
structure Shape (E : Bytes) (tf : UInt8) (tb : Bytes) (lf : UInt8) (lb v : Bytes) : Prop where
  eq : E = tf :: (tb ++ lf :: (lb ++ v))
  htb : tb.length = ext tf
  hlb : lb.length = ext lf
  form : VarNumForm v.length (lf :: lb)

theorem isElement_shape {E : Bytes} (h : IsElement E) : ∃ tf tb lf lb v, Shape E tf tb lf lb v := by
  obtain ⟨t, v, T, L, hT, hL, rfl⟩ := h
  obtain ⟨tf, tb, rfl, h1, -⟩ := varNumForm_shape hT
  obtain ⟨lf, lb, rfl, h2, -⟩ := varNumForm_shape hL
  exact ⟨tf, tb, lf, lb, v, by simp, h1, h2, hL⟩

theorem Shape.isElement {E tf tb lf lb v} (h : Shape E tf tb lf lb v) : IsElement E := by
  obtain ⟨n, hn⟩ := shape_varNumForm tf tb h.htb
  exact ⟨n, v, tf :: tb, lf :: lb, hn, h.form, by simp [h.eq]⟩

theorem Shape.length {E tf tb lf lb v} (h : Shape E tf tb lf lb v) :
    E.length = 2 + tb.length + lb.length + v.length := by
  rw [h.eq]; simp; omega

/-- The decoder has read the first `i` bytes of the element. -/
structure InvAt (E : Bytes) (tb : Bytes) (lf : UInt8) (lb : Bytes) (i : Nat) (s : SD) : Prop where
  notEnd : s.gotElementEnd = false
  buf : s.headerBuffer.length = 8
  fresh : s.state ≠ .readLengthBytes → s.state ≠ .readValueBytes →
    s.useHeaderBuffer = false ∧ s.headerLength = 0
  t0 : s.state = .readType → i = 0
  t1 : s.state = .readTypeBytes → 0 < i ∧ i + s.nBytesToRead = 1 + tb.length ∧ 0 < s.nBytesToRead
  l0 : s.state = .readLength → i = 1 + tb.length
  l1 : s.state = .readLengthBytes → s.firstOctet = lf.toNat ∧ ¬ lf.toNat < 253 ∧
    s.nBytesToRead = lb.length ∧ i = 2 + tb.length + s.headerLength ∧ s.headerLength < lb.length ∧
    s.headerBuffer.take s.headerLength = lb.take s.headerLength ∧
    (s.useHeaderBuffer = false → s.headerLength = 0)
  v0 : s.state = .readValueBytes → i + s.nBytesToRead = E.length ∧ 0 < s.nBytesToRead

theorem invAt_new (E tb lf lb) : InvAt E tb lf lb 0 SD.new := by
  constructor <;> simp [SD.new]

theorem InvAt.lt {E tf tb lf lb v i s} (hE : Shape E tf tb lf lb v) (h : InvAt E tb lf lb i s) :
    i < E.length := by
  have hl := hE.length
  cases hs : s.state with
  | readType => have := h.t0 hs; omega
  | readTypeBytes => have := h.t1 hs; omega
  | readLength => have := h.l0 hs; omega
  | readLengthBytes => have := h.l1 hs; omega
  | readValueBytes => have := h.v0 hs; omega

def SDState.rank : SDState → Nat
  | .readType => 0
  | .readTypeBytes => 1
  | .readLength => 2
  | .readLengthBytes => 3
  | .readValueBytes => 4

/-- The input agrees with the element from position `i0`. -/
def Agrees (E : Bytes) (i0 : Nat) (d : Bytes) : Prop :=
  ∀ j, j < d.length → i0 + j < E.length → d[j]? = E[i0 + j]?

theorem Agrees.slice {E d : Bytes} {i0 : Nat} (h : Agrees E i0 d) (o n : Nat) (h1 : o + n ≤ d.length)
    (h2 : i0 + o + n ≤ E.length) : (d.drop o).take n = (E.drop (i0 + o)).take n := by
  apply List.ext_getElem?
  intro k
  rw [List.getElem?_take, List.getElem?_take]
  split
  · rename_i hk
    rw [List.getElem?_drop, List.getElem?_drop, h _ (by omega) (by omega)]
    congr 1; omega
  · rfl

/-- What one pass does. -/
theorem pass_spec {E tf tb lf lb v} (hE : Shape E tf tb lf lb v) {i0 : Nat} {d : Bytes}
    (ha : Agrees E i0 d) {s : SD} (ho : s.offset ≤ d.length) (h : InvAt E tb lf lb (i0 + s.offset) s) :
    ∃ s' r, s.pass d = .ok (s', r) ∧
      (match r with
       | some true => E.length ≤ i0 + d.length ∧ i0 + s'.offset = E.length
       | some false => i0 + d.length < E.length ∧ InvAt E tb lf lb (i0 + d.length) s'
       | none => s'.offset ≤ d.length ∧ InvAt E tb lf lb (i0 + s'.offset) s' ∧
           s.state.rank < s'.state.rank) := by
  have hlt := h.lt hE
  have hl := hE.length
  unfold SD.pass
  split
  · rename_i hge
    refine ⟨s, some false, rfl, ?_⟩
    have : s.offset = d.length := by omega
    rw [this] at h hlt
    exact ⟨hlt, h⟩
  · rename_i hge
    have hd : s.offset < d.length := by omega
    have hbyte : d[s.offset]? = E[i0 + s.offset]? := ha _ hd hlt
    split
    · -- readType
      rename_i hs
      have h0 := h.t0 hs
      have hf := h.fresh (by simp [hs]) (by simp [hs])
      have hE0 : E[i0 + s.offset]? = some tf := by rw [h0, hE.eq]; rfl
      rw [hbyte, hE0]
      simp only
      split
      · rename_i h253
        have htb : tb.length = 0 := by rw [hE.htb, ext, if_pos h253]
        refine ⟨_, none, rfl, by simp; omega, ?_, by simp [hs, SDState.rank]⟩
        constructor <;> simp [h.notEnd, h.buf, hf]
        omega
      · rename_i h253
        have htb : tb.length = nExtended tf.toNat := by rw [hE.htb, ext, if_neg h253]
        have hp := ext_pos h253
        rw [ext, if_neg h253] at hp
        refine ⟨_, none, rfl, by simp; omega, ?_, by simp [hs, SDState.rank]⟩
        constructor <;> simp [h.notEnd, h.buf, hf]
        omega
    · -- readTypeBytes
      rename_i hs
      have h1 := h.t1 hs
      have hf := h.fresh (by simp [hs]) (by simp [hs])
      simp only
      split
      · rename_i hn
        refine ⟨_, some false, rfl, by omega, ?_⟩
        constructor <;> simp [h.notEnd, h.buf, hf, hs]
        omega
      · rename_i hn
        refine ⟨_, none, rfl, by simp; omega, ?_, by simp [hs, SDState.rank]⟩
        constructor <;> simp [h.notEnd, h.buf, hf]
        omega
    · -- readLength
      rename_i hs
      have h1 := h.l0 hs
      have hf := h.fresh (by simp [hs]) (by simp [hs])
      have hE0 : E[i0 + s.offset]? = some lf := by
        rw [h1, hE.eq, Nat.add_comm 1, List.getElem?_cons_succ,
          List.getElem?_append_right (Nat.le_refl _)]; simp
      rw [hbyte, hE0]
      simp only
      split
      · rename_i h253
        have hlb : lb.length = 0 := by rw [hE.hlb, ext, if_pos h253]
        obtain ⟨f, r, he, -, hv⟩ := varNumForm_shape hE.form
        rw [List.cons.injEq] at he
        rw [← he.1] at hv
        have hv := hv h253
        split
        · rename_i hz
          refine ⟨_, some true, rfl, by omega, ?_⟩
          simp; omega
        · rename_i hz
          refine ⟨_, none, rfl, by simp; omega, ?_, by simp [hs, SDState.rank]⟩
          constructor <;> simp [h.notEnd, h.buf]
          omega
      · rename_i h253
        have hlb : lb.length = nExtended lf.toNat := by rw [hE.hlb, ext, if_neg h253]
        have hp := ext_pos h253
        rw [ext, if_neg h253] at hp
        refine ⟨_, none, rfl, by simp; omega, ?_, by simp [hs, SDState.rank]⟩
        constructor <;> simp [h.notEnd, h.buf, hf]
        omega
    · -- readLengthBytes
      rename_i hs
      obtain ⟨g1, g2, g3, g4, g5, g6, g7⟩ := h.l1 hs
      have hlb8 : lb.length ≤ 8 := by rw [hE.hlb]; exact ext_le lf
      have hbuf := h.buf
      have hEdrop : E.drop (2 + tb.length) = lb ++ v := by
        rw [hE.eq, show 2 + tb.length = (tb.length + 1) + 1 by omega, List.drop_succ_cons,
          List.drop_append, List.drop_eq_nil_of_le (by omega)]
        simp
      -- the end of both branches
      have hend : ∀ s' : SD, s'.gotElementEnd = false → s'.headerBuffer.length = 8 →
          s'.nBytesToRead = v.length → s'.offset ≤ d.length → i0 + s'.offset = 2 + tb.length + lb.length →
          ∃ s'' r, (Except.ok (SD.gotLength s') : Except Err _) = .ok (s'', r) ∧
          (match r with
           | some true => E.length ≤ i0 + d.length ∧ i0 + s''.offset = E.length
           | some false => i0 + d.length < E.length ∧ InvAt E tb lf lb (i0 + d.length) s''
           | none => s''.offset ≤ d.length ∧ InvAt E tb lf lb (i0 + s''.offset) s'' ∧
               s.state.rank < s''.state.rank) := by
        intro s' e1 e2 e3 e4 e5
        unfold SD.gotLength
        split
        · rename_i hz
          exact ⟨_, some true, rfl, by omega, by simp; omega⟩
        · rename_i hz
          refine ⟨_, none, rfl, by simpa using e4, ?_, by simp [hs, SDState.rank]⟩
          constructor <;> simp [e1, e2]
          omega
      simp only
      split
      · rename_i hc
        simp only [Bool.and_eq_true, Bool.not_eq_true', decide_eq_true_eq] at hc
        have hz := g7 hc.1
        have hsl : (d.drop s.offset).take lb.length = lb := by
          rw [ha.slice _ _ (by omega) (by omega), g4, hz, Nat.add_zero, hEdrop, List.take_left]
        have hdrop : d.drop s.offset = lb ++ (d.drop s.offset).drop lb.length := by
          conv => lhs; rw [← List.take_append_drop lb.length (d.drop s.offset), hsl]
        rw [g1, readExtendedVarNumber_form hE.form g2 hdrop]
        simp only
        exact hend _ h.notEnd hbuf rfl (by simp; omega) (by simp; omega)
      · have htk : ∀ k, s.headerLength + k ≤ lb.length → s.offset + k ≤ d.length →
            (sliceAssign s.headerBuffer s.headerLength ((d.drop s.offset).take k)).take (s.headerLength + k)
              = lb.take (s.headerLength + k) ∧
            (sliceAssign s.headerBuffer s.headerLength ((d.drop s.offset).take k)).length = 8 := by
          intro k hk1 hk2
          have hsl : (d.drop s.offset).take k = (lb.drop s.headerLength).take k := by
            rw [ha.slice _ _ (by omega) (by omega), g4, ← List.drop_drop, hEdrop,
              List.drop_append, List.take_append]
            simp; omega
          have hlk : ((d.drop s.offset).take k).length = k := by simp; omega
          constructor
          · unfold sliceAssign
            rw [g6, hsl, List.take_append_of_le_length (by simp; omega),
              List.take_of_length_le (by simp; omega)]
            rw [List.take_add]
          · unfold sliceAssign
            simp only [List.length_append, List.length_take, List.length_drop, hbuf]
            omega
        split
        · rename_i hn
          split
          · rename_i hb; omega
          · rename_i hb
            refine ⟨_, some false, rfl, by omega, ?_⟩
            have := htk (d.length - s.offset) (by omega) (by omega)
            constructor <;> simp [h.notEnd, hs]
            · exact this.2
            · refine ⟨g1, by omega, g3, by omega, by omega, this.1⟩
        · rename_i hn
          split
          · rename_i hb; omega
          · rename_i hb
            have := htk (s.nBytesToRead - s.headerLength) (by omega) (by omega)
            have e : s.headerLength + (s.nBytesToRead - s.headerLength) = lb.length := by omega
            rw [e, List.take_of_length_le (l := lb) (Nat.le_refl _)] at this
            have hdrop : (sliceAssign s.headerBuffer s.headerLength
                ((d.drop s.offset).take (s.nBytesToRead - s.headerLength))).drop 0 =
                lb ++ (sliceAssign s.headerBuffer s.headerLength
                ((d.drop s.offset).take (s.nBytesToRead - s.headerLength))).drop lb.length := by
              conv => lhs; rw [List.drop_zero, ← List.take_append_drop lb.length (sliceAssign _ _ _), this.1]
            rw [g1, readExtendedVarNumber_form hE.form g2 hdrop]
            simp only
            exact hend _ h.notEnd this.2 rfl (by simp; omega) (by simp; omega)
    · -- readValueBytes
      rename_i hs
      have h1 := h.v0 hs
      simp only
      split
      · rename_i hn
        refine ⟨_, some false, rfl, by omega, ?_⟩
        constructor <;> simp [h.notEnd, h.buf, hs]
        omega
      · rename_i hn
        refine ⟨_, some true, rfl, by omega, ?_⟩
        simp; omega

theorem loop_spec {E tf tb lf lb v} (hE : Shape E tf tb lf lb v) {i0 : Nat} {d : Bytes}
    (ha : Agrees E i0 d) (fuel : Nat) {s : SD} (hf : 5 ≤ fuel + s.state.rank) (ho : s.offset ≤ d.length)
    (h : InvAt E tb lf lb (i0 + s.offset) s) :
    ∃ s' b, SD.loop d fuel s = .ok (s', b) ∧
      (b = true → E.length ≤ i0 + d.length ∧ i0 + s'.offset = E.length) ∧
      (b = false → i0 + d.length < E.length ∧ InvAt E tb lf lb (i0 + d.length) s') := by
  induction fuel generalizing s with
  | zero => exfalso; cases hs : s.state <;> simp [hs, SDState.rank] at hf
  | succ fuel ih =>
    obtain ⟨s', r, hp, hr⟩ := pass_spec hE ha ho h
    unfold SD.loop
    rw [hp]
    match r, hr with
    | some true, hr => exact ⟨s', true, rfl, fun _ => hr, fun h => by cases h⟩
    | some false, hr => exact ⟨s', false, rfl, (fun h => by cases h), fun _ => hr⟩
    | none, hr => exact ih (by omega) hr.1 hr.2.1

/-- `findElementEnd` when the first `i0` bytes of the element were read by earlier calls. -/
theorem findElementEnd_spec {E tf tb lf lb v} (hE : Shape E tf tb lf lb v) {i0 : Nat} {d : Bytes}
    (ha : Agrees E i0 d) {s : SD} (h : InvAt E tb lf lb i0 s) :
    ∃ s' b, SD.findElementEnd { s with offset := 0 } d = .ok (s', b) ∧
      (b = true → E.length ≤ i0 + d.length ∧ i0 + s'.offset = E.length) ∧
      (b = false → i0 + d.length < E.length ∧ InvAt E tb lf lb (i0 + d.length) s') := by
  unfold SD.findElementEnd
  simp only [h.notEnd, Bool.false_eq_true, if_false]
  refine loop_spec hE ha 6 (by omega) (Nat.zero_le _) ?_
  obtain ⟨h1, h2, h3, h4, h5, h6, h7, h8⟩ := h
  exact ⟨rfl, h2, h3, h4, h5, h6, h7, h8⟩

end PyNDN
