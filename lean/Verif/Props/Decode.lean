import Verif.Lemmas.Cut
import Verif.Props.Name
/-
C04: decoding arbitrary bytes is safe.  C06: bytes after the packet have no influence.
-/
namespace PyNDN
open Spec

namespace Spec
/-- The call returned, or raised one of the exceptions that the wire format functions document:
`ValueError` or `RuntimeError`.  In particular it raised no `IndexError` (a read outside the input),
`TypeError`, `KeyError` or `AttributeError`. -/
def Documented (r : Except Err α) : Prop :=
  (∃ a, r = .ok a) ∨ r = .error .value ∨ r = .error .runtime

/-- Whatever is decoded from an input is also decoded when other bytes follow it. -/
def IgnoresSuffix (decode : Bytes → Except Err α) : Prop :=
  ∀ inp a, decode inp = .ok a → ∀ extra, decode (inp ++ extra) = .ok a
end Spec

theorem runDec_documented {m : Dec α} (h : Safe m) (inp : Bytes) : Documented (runDec m inp) := by
  unfold runDec
  cases hr : m.run inp 0 with
  | ok r => exact Or.inl ⟨r.1, rfl⟩
  | error e =>
    rcases h _ _ _ hr with h | h
    · subst h; exact Or.inr (Or.inl rfl)
    · subst h; exact Or.inr (Or.inr rfl)

theorem runDec_ignores {m : Dec α} (h : Stable m) : IgnoresSuffix (runDec m) := by
  intro inp a hr extra
  unfold runDec at hr ⊢
  cases hm : m.run inp 0 with
  | error e => rw [hm] at hr; cases hr
  | ok r =>
    obtain ⟨x, o⟩ := r
    rw [hm] at hr
    obtain ⟨_, _, h3⟩ := h _ _ _ _ (Nat.zero_le _) hm
    rw [h3 extra]
    exact hr

theorem decodeName_eq_runDec (inp : Bytes) :
    decodeName inp = (runDec decodeNameFrom inp).map (·.1) := by
  unfold decodeName runDec
  cases decodeNameFrom.run inp 0 <;> rfl

/-! ### C04 -/

theorem C04_name (inp : Bytes) : Documented (decodeName inp) := by
  rw [decodeName_eq_runDec]
  rcases runDec_documented Safe.decodeNameFrom inp with ⟨a, h⟩ | h | h <;> rw [h]
  · exact Or.inl ⟨a.1, rfl⟩
  · exact Or.inr (Or.inl rfl)
  · exact Or.inr (Or.inr rfl)

theorem C04_data (old : Data) (inp : Bytes) : Documented (decodeData old inp) :=
  runDec_documented (Safe.decodeDataFrom old) inp

theorem C04_interest (old : Interest) (inp : Bytes) : Documented (decodeInterest old inp) := by
  unfold decodeInterest
  rcases runDec_documented (Safe.decodeInterestV02 old) inp with ⟨a, h⟩ | h | h <;> rw [h]
  · exact Or.inl ⟨a, rfl⟩
  all_goals
    dsimp only
    cases hr : runDec decodeInterestV03 inp with
    | ok a => exact Or.inl ⟨a, rfl⟩
    | error e =>
      first
      | exact Or.inr (Or.inl rfl)
      | exact Or.inr (Or.inr rfl)

theorem C04_delegationSet (inp : Bytes) : Documented (decodeDelegationSet inp) :=
  runDec_documented (Safe.decodeDelegationSetFrom _) inp

theorem C04_controlParameters (inp : Bytes) : Documented (decodeControlParameters inp) :=
  runDec_documented Safe.decodeControlParametersFrom inp

theorem C04_controlResponse (inp : Bytes) : Documented (decodeControlResponse inp) :=
  runDec_documented Safe.decodeControlResponseFrom inp

/-- For a link-layer packet the full statement `Documented (decodeLpPacket inp)` is false (see
`C04_lpPacket_typeError`): a `TypeError` is possible, and nothing else. -/
theorem C04_lpPacket_partial (inp : Bytes) :
    Documented (decodeLpPacket inp) ∨ decodeLpPacket inp = .error .type := by
  unfold decodeLpPacket runDec
  cases hr : decodeLpPacketFrom.run inp 0 with
  | ok r => exact Or.inl (Or.inl ⟨r.1, rfl⟩)
  | error e =>
    rcases decodeLpPacketFrom_safe _ _ (Nat.zero_le _) _ hr with h | h | h <;> subst h
    · exact Or.inl (Or.inr (Or.inl rfl))
    · exact Or.inl (Or.inr (Or.inr rfl))
    · exact Or.inr rfl

theorem readVarNumber_At {inp off e t} {v : Bytes} {l} (h : At inp off e ((t, v) :: l)) :
    ∃ o1 o2, readVarNumber.run inp off = .ok (t, o1) ∧ readVarNumber.run inp o1 = .ok (v.length, o2) ∧
      o2 + v.length = off + (tlv t v).length ∧ (∃ rest, inp.drop o2 = v ++ rest) := by
  obtain ⟨rest, hd⟩ := h.head
  obtain ⟨ht, hv⟩ := h.bound
  have hd' := drop_tlv_value hd
  rw [tlv_append] at hd
  refine ⟨_, _, readVarNumber_drop ht hd, readVarNumber_drop hv (drop_add hd), ?_, rest, ?_⟩
  · rw [tlv_length]; omega
  · exact drop_add (drop_add hd)

theorem At.end_le {inp off e} {l} (h : At inp off e l) (hl : l ≠ []) : e ≤ inp.length := by
  obtain ⟨⟨rest, hd⟩, hs, _⟩ := h
  cases l with
  | nil => exact absurd rfl hl
  | cons p l =>
    have hne : flat (p :: l) ++ rest ≠ [] := by
      rw [flat_cons]; simp [tlv_ne_nil]
    have := drop_len hd hne
    rw [List.length_append] at this; omega

/-- A link-layer packet whose Nack header field has no NackReason (which NDNLPv2 allows), whatever its
other fields: an undocumented `TypeError` escapes from the decoder. -/
theorem C04_lpPacket_typeError (rest : List (Nat × Bytes)) (extra : Bytes)
    (hok : FieldsOk ((800, []) :: rest)) (hlen : (flat ((800, []) :: rest)).length < 2 ^ 64) :
    decodeLpPacket (tlv 100 (flat ((800, []) :: rest)) ++ extra) = .error .type := by
  unfold decodeLpPacket runDec decodeLpPacketFrom
  obtain ⟨e', o, h1, h2, h3⟩ := readNestedTlvsStart_At (At.start (t := 100) (rest := extra) (by omega) hlen) hok
  rw [Dec.bind_ok h1, Dec.bind_ok (getOffset_run _ _)]
  obtain ⟨o1, o2, r1, r2, r3, _⟩ := readVarNumber_At h2
  have hlt := h2.lt
  have hle := h2.end_le (by simp)
  have hstop := h2.stop
  rw [flat_cons, List.length_append] at hstop
  dsimp only at hstop
  obtain ⟨k, hk⟩ : ∃ k, e' - o = k + 1 := ⟨e' - o - 1, by omega⟩
  rw [hk]
  have : (decodeLpField {}).run (tlv 100 (flat ((800, []) :: rest)) ++ extra) o = .error .type := by
    unfold decodeLpField
    rw [Dec.bind_ok r1, Dec.bind_ok r2, Dec.bind_ok (getOffset_run _ _), Dec.bind_ok (inputLen_run _ _)]
    rw [if_neg (by simp only [List.length_nil] at *; omega), if_neg (by omega)]
    refine Dec.bind_eq_error.mpr (Or.inl ?_)
    unfold decodeLpHeader
    rw [if_pos rfl]
    have : (readOptionalNonNegativeIntegerTlv 801 (o2 + ([] : Bytes).length)).run
        (tlv 100 (flat ((800, []) :: rest)) ++ extra) o2 = .ok (none, o2) := by
      unfold readOptionalNonNegativeIntegerTlv
      rw [Dec.bind_ok (peekType_end (by simp))]
      rfl
    rw [Dec.bind_ok this]
    rfl
  have h4 : (decodeLpLoop e' (k + 1) {}).run (tlv 100 (flat ((800, []) :: rest)) ++ extra) o
      = .error .type := by
    unfold decodeLpLoop
    rw [Dec.bind_ok (getOffset_run _ _), if_pos hlt]
    exact Dec.bind_eq_error.mpr (Or.inl this)
  rw [Dec.bind_eq_error.mpr (Or.inl h4)]

/-- The hypotheses hold for a Nack around an Interest fragment. -/
example : FieldsOk [(800, []), (80, [5, 2, 7, 0])] ∧
    (flat [(800, []), (80, [5, 2, 7, 0])]).length < 2 ^ 64 := by
  constructor
  · intro p hp
    simp only [List.mem_cons, List.not_mem_nil, or_false] at hp
    rcases hp with h | h <;> subst h <;> simp
  · decide

/-! ### C06 -/

theorem C06_name : IgnoresSuffix decodeName := by
  intro inp a h extra
  rw [decodeName_eq_runDec] at h ⊢
  cases hr : runDec decodeNameFrom inp with
  | error e => rw [hr] at h; cases h
  | ok r => rw [runDec_ignores Stable.decodeNameFrom _ _ hr extra, ← hr]; exact h

theorem C06_data (old : Data) : IgnoresSuffix (decodeData old) :=
  runDec_ignores (Stable.decodeDataFrom old)

/-- This includes the case where the v0.2 layout is tried first, fails, and the v0.3 layout succeeds:
the extra bytes cannot make the v0.2 layout succeed. -/
theorem C06_interest (old : Interest) : IgnoresSuffix (decodeInterest old) := by
  intro inp a h extra
  unfold decodeInterest at h ⊢
  cases h2 : runDec (decodeInterestV02 old) inp with
  | ok r =>
    rw [h2] at h
    rw [runDec_ignores (Stable.decodeInterestV02 old) _ _ h2 extra]; exact h
  | error e =>
    rw [h2] at h
    dsimp only at h
    cases h3 : runDec decodeInterestV03 inp with
    | error e' => rw [h3] at h; cases h
    | ok r =>
      rw [h3] at h
      cases h2' : runDec (decodeInterestV02 old) (inp ++ extra) with
      | error e' =>
        dsimp only
        rw [runDec_ignores Stable.decodeInterestV03 _ _ h3 extra]; exact h
      | ok r2 =>
        exfalso
        unfold runDec at h2' h3 h2
        cases k2 : (decodeInterestV02 old).run (inp ++ extra) 0 with
        | error e' => rw [k2] at h2'; cases h2'
        | ok q2 =>
          cases k3 : decodeInterestV03.run inp 0 with
          | error e' => rw [k3] at h3; cases h3
          | ok q3 =>
            obtain ⟨q2, o2⟩ := q2
            obtain ⟨q3, o3⟩ := q3
            have ho := interest_ends k2 k3
            obtain ⟨_, l3, s3⟩ := Stable.decodeInterestV03 _ _ _ _ (Nat.zero_le _) k3
            obtain ⟨q, m1, m2⟩ := v02_v03_exclude k2 (s3 extra)
            subst m2
            have m3 := (Cut0.v02With old).clean _ _ _ m1 (by omega)
            have m4 := v02With_imp m3
            rw [m4] at h2
            cases h2

theorem C06_controlParameters : IgnoresSuffix decodeControlParameters :=
  runDec_ignores Stable.decodeControlParametersFrom

theorem C06_controlResponse : IgnoresSuffix decodeControlResponse :=
  runDec_ignores Stable.decodeControlResponseFrom

theorem C06_lpPacket : IgnoresSuffix decodeLpPacket :=
  runDec_ignores Stable.decodeLpPacketFrom

/-- Inputs that decode: a Data packet, a v0.2 and a v0.3 Interest, control parameters, a control
response and a link-layer packet. -/
example : (decodeData {} [6, 12, 7, 3, 8, 1, 97, 22, 3, 27, 1, 0, 23, 0]).isOk := by decide +kernel
example : (decodeInterest {} [5, 11, 7, 3, 8, 1, 97, 10, 4, 1, 2, 3, 4]).isOk := by decide +kernel
example : (decodeInterest {} [5, 13, 7, 3, 8, 1, 97, 33, 0, 10, 4, 1, 2, 3, 4]).isOk ∧
    ¬ (runDec (decodeInterestV02 {}) [5, 13, 7, 3, 8, 1, 97, 33, 0, 10, 4, 1, 2, 3, 4]).isOk := by
  decide +kernel
example : (decodeControlParameters [104, 8, 7, 3, 8, 1, 97, 105, 1, 9]).isOk := by decide +kernel
example : (decodeControlResponse [101, 7, 102, 1, 200, 103, 2, 79, 75]).isOk := by decide +kernel
example : (decodeLpPacket [100, 14, 253, 3, 32, 5, 253, 3, 33, 1, 50, 80, 3, 5, 1, 0]).isOk := by
  decide +kernel

end PyNDN
