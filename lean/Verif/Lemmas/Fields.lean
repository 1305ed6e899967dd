import Verif.Lemmas.Tlv
/-
Helper lemmas for decoding a sequence of TLV fields.  `At inp off e l` says that the input at offset
`off` holds exactly the fields `l`, which end at offset `e`.
-/
namespace PyNDN
open Spec (flat opt tlv)

/-- Each field can be represented: type and length below 2^64. -/
def FieldsOk (l : List (Nat × Bytes)) : Prop := ∀ p ∈ l, p.1 < 2 ^ 64 ∧ p.2.length < 2 ^ 64

structure At (inp : Bytes) (off e : Nat) (l : List (Nat × Bytes)) : Prop where
  drop : ∃ rest, inp.drop off = flat l ++ rest
  stop : e = off + (flat l).length
  ok : FieldsOk l

theorem flat_cons (p : Nat × Bytes) (l) : flat (p :: l) = tlv p.1 p.2 ++ flat l := by simp [flat]
@[simp] theorem flat_nil : flat [] = [] := rfl
theorem flat_append (a b) : flat (a ++ b) = flat a ++ flat b := by simp [flat]

theorem FieldsOk.tail {p} {l} (h : FieldsOk (p :: l)) : FieldsOk l :=
  fun q hq => h q (List.mem_cons_of_mem _ hq)
theorem FieldsOk.append {a b} (ha : FieldsOk a) (hb : FieldsOk b) : FieldsOk (a ++ b) := by
  intro p hp
  rcases List.mem_append.mp hp with h | h
  · exact ha p h
  · exact hb p h
theorem FieldsOk.nil : FieldsOk [] := by intro p hp; simp at hp
theorem FieldsOk.cons {t : Nat} {v : Bytes} {l} (ht : t < 2 ^ 64) (hv : v.length < 2 ^ 64)
    (h : FieldsOk l) : FieldsOk ((t, v) :: l) := by
  intro p hp
  rcases List.mem_cons.mp hp with h' | h'
  · subst h'; exact ⟨ht, hv⟩
  · exact h p h'
theorem FieldsOk.opt {t : Nat} {x : Option Bytes} (ht : t < 2 ^ 64)
    (hv : ∀ v, x = some v → v.length < 2 ^ 64) : FieldsOk (opt t x) := by
  cases x with
  | none => exact FieldsOk.nil
  | some v => exact FieldsOk.cons ht (hv v rfl) FieldsOk.nil

theorem At.next {inp off e t} {v : Bytes} {l} (h : At inp off e ((t, v) :: l)) :
    At inp (off + (tlv t v).length) e l := by
  obtain ⟨⟨rest, hd⟩, hs, hk⟩ := h
  rw [flat_cons, List.append_assoc] at hd
  exact ⟨⟨rest, drop_add hd⟩, by simp only [flat_cons, List.length_append] at hs; omega, hk.tail⟩

theorem At.head {inp off e t} {v : Bytes} {l} (h : At inp off e ((t, v) :: l)) :
    ∃ rest, inp.drop off = tlv t v ++ rest := by
  obtain ⟨⟨rest, hd⟩, _, _⟩ := h
  rw [flat_cons, List.append_assoc] at hd
  exact ⟨_, hd⟩

theorem At.lt {inp off e p l} (h : At inp off e (p :: l)) : off < e := by
  have h1 := h.stop
  have h2 : 0 < (tlv p.1 p.2).length := List.length_pos_iff.mpr (tlv_ne_nil _ _)
  rw [flat_cons, List.length_append] at h1; omega

theorem At.nil {inp off e} (h : At inp off e []) : off = e := by
  have := h.stop; simpa using this.symm

theorem At.bound {inp off e t} {v : Bytes} {l} (h : At inp off e ((t, v) :: l)) :
    t < 2 ^ 64 ∧ v.length < 2 ^ 64 := h.ok (t, v) (by simp)

/-- `peekType` for a type that none of the remaining fields has. -/
theorem peekType_absent {inp off e t l} (h : At inp off e l) (hne : ∀ p ∈ l, p.1 ≠ t) :
    (peekType t e).run inp off = .ok (false, off) := by
  cases l with
  | nil => exact peekType_end (by have := h.nil; omega)
  | cons p l =>
    obtain ⟨rest, hd⟩ := At.head (t := p.1) (v := p.2) h
    rw [peekType_tlv (At.bound (t := p.1) (v := p.2) h).1 h.lt hd]
    have : p.1 ≠ t := hne p (by simp)
    simp [this]

theorem peekType_present {inp off e t} {v : Bytes} {l} (h : At inp off e ((t, v) :: l)) :
    (peekType t e).run inp off = .ok (true, off) := by
  obtain ⟨rest, hd⟩ := h.head
  rw [peekType_tlv h.bound.1 h.lt hd]; simp

/-- `peekType` on the first remaining field. -/
theorem peekType_head {inp off e t t'} {v : Bytes} {l} (h : At inp off e ((t, v) :: l)) :
    (peekType t' e).run inp off = .ok (t == t', off) := by
  obtain ⟨rest, hd⟩ := h.head
  rw [peekType_tlv h.bound.1 h.lt hd]

theorem readBlobTlv_At {inp off e t} {v : Bytes} {l} (h : At inp off e ((t, v) :: l)) :
    ∃ off', (readBlobTlv t).run inp off = .ok (v, off') ∧ At inp off' e l := by
  obtain ⟨rest, hd⟩ := h.head
  exact ⟨_, readBlobTlv_tlv h.bound.1 h.bound.2 hd, h.next⟩

theorem readOptionalBlobTlv_At {inp off e t} {x : Option Bytes} {l}
    (h : At inp off e (opt t x ++ l)) (hne : ∀ p ∈ l, p.1 ≠ t) :
    ∃ off', (readOptionalBlobTlv t e).run inp off = .ok (x, off') ∧ At inp off' e l := by
  unfold readOptionalBlobTlv
  cases x with
  | none =>
    refine ⟨off, ?_, h⟩
    rw [Dec.bind_ok (peekType_absent (l := l) h hne)]; rfl
  | some v =>
    have h : At inp off e ((t, v) :: l) := h
    obtain ⟨off', h1, h2⟩ := readBlobTlv_At h
    refine ⟨off', ?_, h2⟩
    rw [Dec.bind_ok (peekType_present h)]
    simp only [if_true]
    rw [Dec.bind_ok h1]; rfl

theorem readNonNegativeIntegerTlv_At {inp off e t n} {l} (hn : n < 2 ^ 64)
    (h : At inp off e ((t, Spec.nonNeg n) :: l)) :
    ∃ off', (readNonNegativeIntegerTlv t).run inp off = .ok (n, off') ∧ At inp off' e l := by
  obtain ⟨rest, hd⟩ := h.head
  exact ⟨_, readNonNegativeIntegerTlv_tlv h.bound.1 hn hd, h.next⟩

theorem readOptionalNonNegativeIntegerTlv_At {inp off e t} {x : Option Nat} {l}
    (hx : ∀ n, x = some n → n < 2 ^ 64)
    (h : At inp off e (opt t (x.map Spec.nonNeg) ++ l)) (hne : ∀ p ∈ l, p.1 ≠ t) :
    ∃ off', (readOptionalNonNegativeIntegerTlv t e).run inp off = .ok (x, off') ∧
      At inp off' e l := by
  unfold readOptionalNonNegativeIntegerTlv
  cases x with
  | none =>
    refine ⟨off, ?_, h⟩
    rw [Dec.bind_ok (peekType_absent (l := l) h hne)]; rfl
  | some n =>
    have h : At inp off e ((t, Spec.nonNeg n) :: l) := h
    obtain ⟨off', h1, h2⟩ := readNonNegativeIntegerTlv_At (hx n rfl) h
    refine ⟨off', ?_, h2⟩
    rw [Dec.bind_ok (peekType_present h)]
    simp only [if_true]
    rw [Dec.bind_ok h1]; rfl

theorem skipTlv_At {inp off e t} {v : Bytes} {l} (h : At inp off e ((t, v) :: l)) :
    ∃ off', (skipTlv t).run inp off = .ok ((), off') ∧ At inp off' e l := by
  obtain ⟨rest, hd⟩ := h.head
  refine ⟨_, ?_, h.next⟩
  unfold skipTlv
  rw [Dec.bind_ok (readTypeAndLength_tlv h.bound.1 h.bound.2 hd)]
  simp only [advance_run, tlv_value_end]

theorem skipOptionalTlv_At {inp off e t} {x : Option Bytes} {l}
    (h : At inp off e (opt t x ++ l)) (hne : ∀ p ∈ l, p.1 ≠ t) :
    ∃ off', (skipOptionalTlv t e).run inp off = .ok ((), off') ∧ At inp off' e l := by
  unfold skipOptionalTlv
  cases x with
  | none =>
    refine ⟨off, ?_, h⟩
    rw [Dec.bind_ok (peekType_absent (l := l) h hne)]; rfl
  | some v =>
    have h : At inp off e ((t, v) :: l) := h
    obtain ⟨off', h1, h2⟩ := skipTlv_At h
    refine ⟨off', ?_, h2⟩
    rw [Dec.bind_ok (peekType_present h)]
    simp only [if_true]
    exact h1

/-- A flag field is present with an empty value or absent. -/
theorem readBooleanTlv_At {inp off e t} {b : Bool} {l}
    (h : At inp off e (opt t (if b then some [] else none) ++ l)) (hne : ∀ p ∈ l, p.1 ≠ t) :
    ∃ off', (readBooleanTlv t e).run inp off = .ok (b, off') ∧ At inp off' e l := by
  unfold readBooleanTlv
  cases b with
  | false =>
    refine ⟨off, ?_, h⟩
    rw [Dec.bind_ok (peekType_absent (l := l) h hne)]; rfl
  | true =>
    have h : At inp off e ((t, []) :: l) := h
    obtain ⟨rest, hd⟩ := h.head
    refine ⟨_, ?_, h.next⟩
    rw [Dec.bind_ok (peekType_present h)]
    simp only [if_true]
    rw [Dec.bind_ok (readTypeAndLength_tlv h.bound.1 h.bound.2 hd), Dec.bind_ok (advance_run _ _ _)]
    simp only [tlv_value_end, Dec.pure_run]

/-- Entering a nested TLV whose value is a sequence of fields. -/
theorem readNestedTlvsStart_At {inp off e t} {fs l} (h : At inp off e ((t, flat fs) :: l))
    (hf : FieldsOk fs) :
    ∃ e' off', (readNestedTlvsStart t).run inp off = .ok (e', off') ∧ At inp off' e' fs ∧
      At inp e' e l := by
  obtain ⟨rest, hd⟩ := h.head
  refine ⟨_, _, readNestedTlvsStart_tlv h.bound.1 h.bound.2 hd, ⟨⟨rest, drop_tlv_value hd⟩, ?_, hf⟩,
    h.next⟩
  rw [tlv_value_end]

theorem finishNestedTlvs_At {inp off e b} (h : At inp off e []) :
    (finishNestedTlvs e b).run inp off = .ok ((), e) := by
  have := h.nil; subst this; exact finishNestedTlvs_end

/-- A whole input that is one TLV, as given to a wire decode function. -/
theorem At.start {t : Nat} {v rest : Bytes} (ht : t < 2 ^ 64) (hv : v.length < 2 ^ 64) :
    At (tlv t v ++ rest) 0 (tlv t v).length [(t, v)] :=
  ⟨⟨rest, by simp [flat]⟩, by simp [flat], FieldsOk.cons ht hv FieldsOk.nil⟩

theorem At.mono_stop {inp off e l l'} (h : At inp off e (l ++ l')) :
    At inp off (off + (flat l).length) l := by
  obtain ⟨⟨rest, hd⟩, _, hk⟩ := h
  rw [flat_append, List.append_assoc] at hd
  exact ⟨⟨_, hd⟩, rfl, fun p hp => hk p (List.mem_append.mpr (Or.inl hp))⟩

end PyNDN
