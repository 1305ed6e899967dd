import Verif.Lemmas.Packet
/-
Safety and stability of `decodeLpPacket`.
-/
namespace PyNDN

/-- Only ValueError, RuntimeError or TypeError. -/
def SafeT (m : Dec α) : Prop :=
  ∀ inp off e, m.run inp off = .error e → e = .value ∨ e = .runtime ∨ e = .type

theorem Safe.toT {m : Dec α} (h : Safe m) : SafeT m := by
  intro inp off e he
  rcases h _ _ _ he with h | h
  · exact Or.inl h
  · exact Or.inr (Or.inl h)
theorem SafeT.bind {m : Dec α} {f : α → Dec β} (hm : SafeT m) (hf : ∀ a, SafeT (f a)) :
    SafeT (m >>= f) := by
  intro inp off e h
  rcases Dec.bind_eq_error.mp h with h | ⟨a, o, h1, h2⟩
  · exact hm _ _ _ h
  · exact hf a _ _ _ h2
theorem SafeT.ite {c : Prop} [Decidable c] {m n : Dec α} (hm : SafeT m) (hn : SafeT n) :
    SafeT (if c then m else n) := by split <;> assumption

theorem SafeT.decodeLpHeader (t l e : Nat) (lp : LpPacket) : SafeT (decodeLpHeader t l e lp) := by
  unfold PyNDN.decodeLpHeader
  refine SafeT.ite ?_ (SafeT.ite ?_ (SafeT.ite ?_ (SafeT.ite Safe.throwValue.toT ?_)))
  · refine (Safe.readOptionalNonNegativeIntegerTlv _ _).toT.bind fun c => SafeT.bind ?_ fun _ =>
      (Safe.pure _).toT
    intro inp off x h
    unfold Dec.lift nackOfCode at h
    cases c with
    | none => cases h; exact Or.inr (Or.inr rfl)
    | some c =>
      dsimp only at h
      split at h
      · cases h
      · next h' =>
        split at h'
        · cases h'
        · split at h' <;> cases h'
  · exact (Safe.readNonNegativeInteger _).toT.bind fun _ => (Safe.pure _).toT
  · exact (Safe.readNonNegativeInteger _).toT.bind fun _ => (Safe.pure _).toT
  · exact (Safe.seek _).toT.bind fun _ => (Safe.pure _).toT

theorem SafeT.decodeLpField (lp : LpPacket) : SafeT (decodeLpField lp) := by
  unfold PyNDN.decodeLpField
  exact Safe.readVarNumber.toT.bind fun _ => Safe.readVarNumber.toT.bind fun _ =>
    Safe.getOffset.toT.bind fun _ => Safe.inputLen.toT.bind fun _ =>
    SafeT.ite Safe.throwValue.toT <| SafeT.ite
      (Safe.getOffset.toT.bind fun _ => (Safe.getSlice _ _).toT.bind fun _ =>
        (Safe.seek _).toT.bind fun _ => (Safe.pure _).toT)
      ((SafeT.decodeLpHeader _ _ _ _).bind fun _ => (Safe.finishNestedTlvs _ _).toT.bind fun _ =>
        (Safe.pure _).toT)

/-- What a successful pass of the loop does. -/
theorem decodeLpField_inv {lp : LpPacket} {inp : Bytes} {off off' : Nat} {r : LpPacket × Bool}
    (hle : off ≤ inp.length) (h : (decodeLpField lp).run inp off = .ok (r, off')) :
    off < off' ∧ off' ≤ inp.length ∧ ∀ ex, (decodeLpField lp).run (inp ++ ex) off = .ok (r, off') := by
  unfold decodeLpField at h
  obtain ⟨t, o1, h1, h⟩ := Dec.bind_eq_ok.mp h
  obtain ⟨l, o2, h2, h⟩ := Dec.bind_eq_ok.mp h
  rw [Dec.bind_ok (getOffset_run _ _), Dec.bind_ok (inputLen_run _ _)] at h
  obtain ⟨a1, a2, s1⟩ := Stable.readVarNumber _ _ _ _ hle h1
  obtain ⟨b1, b2, s2⟩ := Stable.readVarNumber _ _ _ _ a2 h2
  have hp := Progress.readVarNumber _ _ _ _ h1
  have key : ∀ ex, (decodeLpField lp).run (inp ++ ex) off =
      ((if o2 + l > inp.length + ex.length then Dec.throw .value
        else if t = 80 then do
          let off ← getOffset
          let bs ← getSlice off (o2 + l)
          seek (o2 + l)
          return ({ lp with fragment := some bs }, true)
        else do
          let lp ← decodeLpHeader t l (o2 + l) lp
          finishNestedTlvs (o2 + l)
          return (lp, false) : Dec (LpPacket × Bool))).run (inp ++ ex) o2 := by
    intro ex
    unfold decodeLpField
    rw [Dec.bind_ok (s1 ex), Dec.bind_ok (s2 ex), Dec.bind_ok (getOffset_run _ _),
      Dec.bind_ok (inputLen_run _ _), List.length_append]
  split at h
  · cases h
  · next hb =>
    split at h
    · next h80 =>
      rw [Dec.bind_ok (getOffset_run _ _), Dec.bind_ok (getSlice_run _ _ _ _),
        Dec.bind_ok (seek_run _ _ _)] at h
      cases h
      refine ⟨by omega, by omega, fun ex => ?_⟩
      rw [key, if_neg (by omega), if_pos h80, Dec.bind_ok (getOffset_run _ _),
        Dec.bind_ok (getSlice_run _ _ _ _), Dec.bind_ok (seek_run _ _ _), slice_append (by omega)]
      rfl
    · next h80 =>
      obtain ⟨lp', o3, h3, h⟩ := Dec.bind_eq_ok.mp h
      obtain ⟨_, o4, h4, h⟩ := Dec.bind_eq_ok.mp h
      cases h
      have hs : o2 ≤ o3 ∧ o3 ≤ inp.length ∧
          ∀ ex, (decodeLpHeader t l (o2 + l) lp).run (inp ++ ex) o2 = .ok (lp', o3) := by
        unfold decodeLpHeader at h3 ⊢
        split at h3
        · next h0 =>
          simp only [if_pos h0]
          exact ((Stable.readOptionalNonNegativeIntegerTlv _ _).bind fun _ =>
            (Stable.lift _).bind fun _ => Stable.pure _) _ _ _ _ b2 h3
        split at h3
        · next h0 h00 =>
          simp only [if_neg h0, if_pos h00]
          exact ((Stable.readNonNegativeInteger _).bind fun _ => Stable.pure _) _ _ _ _ b2 h3
        split at h3
        · next h0 h00 h000 =>
          simp only [if_neg h0, if_neg h00, if_pos h000]
          exact ((Stable.readNonNegativeInteger _).bind fun _ => Stable.pure _) _ _ _ _ b2 h3
        split at h3
        · cases h3
        · next h0 h00 h000 h0000 =>
          simp only [if_neg h0, if_neg h00, if_neg h000]
          rw [Dec.bind_ok (seek_run _ _ _)] at h3
          cases h3
          refine ⟨by omega, by omega, fun ex => ?_⟩
          simp only [if_neg h0000]
          rw [Dec.bind_ok (seek_run _ _ _)]
          rfl
      obtain ⟨d1, d2, s3⟩ := hs
      obtain ⟨e1, e2, s4⟩ := Stable.finishNestedTlvs _ _ _ _ _ _ d2 h4
      refine ⟨by omega, e2, fun ex => ?_⟩
      rw [key, if_neg (by omega), if_neg h80, Dec.bind_ok (s3 ex), Dec.bind_ok (s4 ex)]
      rfl

theorem decodeLpLoop_safe (e : Nat) (fuel : Nat) : ∀ lp inp off, off ≤ inp.length → e ≤ off + fuel →
    ∀ x, (decodeLpLoop e fuel lp).run inp off = .error x → x = .value ∨ x = .runtime ∨ x = .type := by
  induction fuel with
  | zero =>
    intro lp inp off hle hf x h
    unfold decodeLpLoop at h
    rw [Dec.bind_ok (getOffset_run _ _), if_neg (by omega)] at h
    cases h
  | succ fuel ih =>
    intro lp inp off hle hf x h
    unfold decodeLpLoop at h
    rw [Dec.bind_ok (getOffset_run _ _)] at h
    split at h
    · rcases Dec.bind_eq_error.mp h with h | ⟨⟨lp', stop⟩, o, h1, h2⟩
      · exact SafeT.decodeLpField lp _ _ _ h
      · obtain ⟨g1, g2, _⟩ := decodeLpField_inv hle h1
        dsimp only at h2
        split at h2
        · cases h2
        · exact ih _ _ _ g2 (by omega) _ h2
    · cases h

theorem decodeLpLoop_stable (e : Nat) (fuel : Nat) : ∀ lp, Stable (decodeLpLoop e fuel lp) := by
  induction fuel with
  | zero =>
    intro lp
    unfold decodeLpLoop
    exact Stable.getOffset.bind fun _ => Stable.ite (Stable.throw _) (Stable.pure _)
  | succ fuel ih =>
    intro lp
    unfold decodeLpLoop
    refine Stable.getOffset.bind fun _ => Stable.ite ?_ (Stable.pure _)
    refine Stable.bind ?_ fun r => ?_
    · intro inp off a off' hle h
      obtain ⟨h1, h2, h3⟩ := decodeLpField_inv hle h
      exact ⟨by omega, h2, h3⟩
    · dsimp only
      split
      · exact Stable.pure _
      · exact ih _

theorem decodeLpPacketFrom_safe (inp : Bytes) (off : Nat) (hle : off ≤ inp.length) (x : Err)
    (h : decodeLpPacketFrom.run inp off = .error x) : x = .value ∨ x = .runtime ∨ x = .type := by
  unfold decodeLpPacketFrom at h
  rcases Dec.bind_eq_error.mp h with h | ⟨e, o, h1, h⟩
  · exact (Safe.readNestedTlvsStart _).toT _ _ _ h
  · obtain ⟨l1, l2, _⟩ := Stable.readNestedTlvsStart _ _ _ _ _ hle h1
    rw [Dec.bind_ok (getOffset_run _ _)] at h
    rcases Dec.bind_eq_error.mp h with h | ⟨lp, o', h2, h⟩
    · exact decodeLpLoop_safe _ _ _ _ _ l2 (by omega) _ h
    · exact ((Safe.finishNestedTlvs _ _).toT.bind fun _ => (Safe.pure _).toT) _ _ _ h

theorem Stable.decodeLpPacketFrom : Stable decodeLpPacketFrom :=
  (Stable.readNestedTlvsStart _).bind fun _ => Stable.getOffset.bind fun _ =>
    (decodeLpLoop_stable _ _ _).bind fun _ => (Stable.finishNestedTlvs _ _).bind fun _ => Stable.pure _

end PyNDN
