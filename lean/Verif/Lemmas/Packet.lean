import Verif.Lemmas.Stable
import Verif.Model.Packet
/-
`Safe`, `Stable` and `Progress` for the decoding functions of the wire format.
-/
namespace PyNDN

/-- `Stable` under the assumption that the input has at least `b` bytes. -/
def StableIf (b : Nat) (m : Dec α) : Prop :=
  ∀ inp off a off', b ≤ inp.length → off ≤ inp.length → m.run inp off = .ok (a, off') →
    off ≤ off' ∧ off' ≤ inp.length ∧ ∀ ex, m.run (inp ++ ex) off = .ok (a, off')

theorem Stable.to {m : Dec α} (h : Stable m) (b : Nat) : StableIf b m :=
  fun inp off a off' _ hle hr => h inp off a off' hle hr

theorem StableIf.bind {b : Nat} {m : Dec α} {f : α → Dec β} (hm : StableIf b m)
    (hf : ∀ a, StableIf b (f a)) : StableIf b (m >>= f) := by
  intro inp off x off' hb hle h
  obtain ⟨a, o, h1, h2⟩ := Dec.bind_eq_ok.mp h
  obtain ⟨l1, l2, s1⟩ := hm _ _ _ _ hb hle h1
  obtain ⟨l3, l4, s2⟩ := hf a _ _ _ _ hb l2 h2
  exact ⟨by omega, l4, fun ex => by rw [Dec.bind_ok (s1 ex)]; exact s2 ex⟩

theorem StableIf.ite {b : Nat} {c : Prop} [Decidable c] {m n : Dec α} (hm : StableIf b m)
    (hn : StableIf b n) : StableIf b (if c then m else n) := by split <;> assumption

theorem StableIf.getSlice (a b : Nat) : StableIf b (getSlice a b) := by
  intro inp off x off' hb hle h
  rw [getSlice_run] at h
  cases h
  refine ⟨Nat.le_refl _, hle, fun ex => ?_⟩
  rw [getSlice_run, slice_append hb]

theorem readNestedTlvsStart_bound {t : Nat} {inp : Bytes} {off e off' : Nat}
    (h : (readNestedTlvsStart t).run inp off = .ok (e, off')) : off' ≤ e ∧ e ≤ inp.length := by
  unfold readNestedTlvsStart at h
  obtain ⟨l, o, h1, h2⟩ := Dec.bind_eq_ok.mp h
  rw [Dec.bind_ok (getOffset_run _ _)] at h2
  cases h2
  obtain ⟨_, _, _, _, _, _, hle⟩ := readTypeAndLength_inv h1
  omega

/-- Inside a nested TLV, its end is inside the input. -/
theorem Stable.nested {t : Nat} {f : Nat → Dec α} (hf : ∀ e, StableIf e (f e)) :
    Stable (PyNDN.readNestedTlvsStart t >>= f) := by
  intro inp off x off' hle h
  obtain ⟨e, o, h1, h2⟩ := Dec.bind_eq_ok.mp h
  obtain ⟨l1, l2, s1⟩ := Stable.readNestedTlvsStart t _ _ _ _ hle h1
  obtain ⟨l3, l4, s2⟩ := hf e _ _ _ _ (readNestedTlvsStart_bound h1).2 l2 h2
  exact ⟨by omega, l4, fun ex => by rw [Dec.bind_ok (s1 ex)]; exact s2 ex⟩

/-! ### Readers -/

theorem Safe.readOptionalNonNegativeIntegerTlvAsFloat (t e : Nat) :
    Safe (readOptionalNonNegativeIntegerTlvAsFloat t e) :=
  (Safe.readOptionalNonNegativeIntegerTlv t e).bind fun _ => Safe.pure _
theorem Stable.readOptionalNonNegativeIntegerTlvAsFloat (t e : Nat) :
    Stable (readOptionalNonNegativeIntegerTlvAsFloat t e) :=
  (Stable.readOptionalNonNegativeIntegerTlv t e).bind fun _ => Stable.pure _

theorem except_map_error {r : Except Err α} {f : α → β} {e : Err} (h : r.map f = .error e) :
    r = .error e := by
  cases r with
  | ok a => cases h
  | error x => cases h; rfl

theorem utf8Decode_safe_aux (n : Nat) : ∀ b : Bytes, b.length ≤ n → ∀ e,
    utf8Decode b = .error e → e = .value := by
  induction n with
  | zero =>
    intro b hb e h
    cases b with
    | nil => simp [utf8Decode] at h
    | cons x xs => simp at hb
  | succ n ih =>
    intro b hb e h
    cases b with
    | nil => simp [utf8Decode] at h
    | cons x xs =>
      simp only [List.length_cons] at hb
      rw [utf8Decode.eq_def] at h
      dsimp only at h
      split at h
      · exact ih _ (by omega) _ (except_map_error h)
      split at h
      · cases h; rfl
      split at h
      · cases xs with
        | nil => cases h; rfl
        | cons y ys =>
          simp only [List.length_cons] at hb
          dsimp only at h
          split at h
          · exact ih _ (by omega) _ (except_map_error h)
          · cases h; rfl
      split at h
      · match xs, hb, h with
        | [], _, h => cases h; rfl
        | [_], _, h => cases h; rfl
        | y :: z :: ys, hb, h =>
          simp only [List.length_cons] at hb
          dsimp only at h
          split at h
          · exact ih _ (by omega) _ (except_map_error h)
          · cases h; rfl
      split at h
      · match xs, hb, h with
        | [], _, h => cases h; rfl
        | [_], _, h => cases h; rfl
        | [_, _], _, h => cases h; rfl
        | y :: z :: w :: ys, hb, h =>
          simp only [List.length_cons] at hb
          dsimp only at h
          split at h
          · exact ih _ (by omega) _ (except_map_error h)
          · cases h; rfl
      · cases h; rfl

theorem utf8Decode_safe (b : Bytes) (e : Err) (h : utf8Decode b = .error e) : e = .value :=
  utf8Decode_safe_aux _ b (Nat.le_refl _) e h

theorem strOfBlob_safe (b : Bytes) (e : Err) (h : strOfBlob b = .error e) :
    e = .value ∨ e = .runtime := by
  unfold strOfBlob at h
  cases hu : utf8Decode b with
  | ok x => rw [hu] at h; cases h
  | error x => rw [hu] at h; cases h; exact Or.inl (utf8Decode_safe b _ hu)

/-- Only ValueError or RuntimeError. -/
def SafeR (r : Except Err α) : Prop := ∀ e, r = .error e → e = .value ∨ e = .runtime

theorem SafeR.bind {r : Except Err α} {f : α → Except Err β} (hr : SafeR r) (hf : ∀ a, SafeR (f a)) :
    SafeR (r >>= f) := by
  intro e h
  cases hr' : r with
  | ok a => rw [hr'] at h; exact hf a e h
  | error x => rw [hr'] at h; cases h; exact hr _ hr'

theorem pyInt_safe (s : List Nat) : SafeR (pyInt s) := by
  intro e h
  unfold pyInt at h
  simp only at h
  split at h <;> cases h
  exact Or.inl rfl

theorem fromIsoString_safe (s : List Nat) : SafeR (fromIsoString s) := by
  unfold fromIsoString
  split
  · intro e h; cases h; exact Or.inr rfl
  · refine (pyInt_safe _).bind fun _ => (pyInt_safe _).bind fun _ => (pyInt_safe _).bind fun _ =>
      (pyInt_safe _).bind fun _ => (pyInt_safe _).bind fun _ => (pyInt_safe _).bind fun _ => ?_
    refine SafeR.bind ?_ fun _ => by intro e h; cases h
    intro e h
    unfold mkDateTime at h
    split at h <;> cases h
    exact Or.inl rfl

theorem Safe.optionally (t e : Nat) {m : Dec α} (d : α) (h : Safe m) : Safe (optionally t e m d) :=
  (Safe.peekType _ _).bind fun _ => Safe.ite h (Safe.pure _)
theorem Stable.optionally (t e : Nat) {m : Dec α} (d : α) (h : Stable m) :
    Stable (optionally t e m d) :=
  (Stable.peekType _ _).bind fun _ => Stable.ite h (Stable.pure _)

/-- Prove `Safe` of a do block from the facts about its parts. -/
macro "safe_dec" : tactic => `(tactic| repeat' (first
  | exact Safe.pure _ | exact Safe.throwValue | exact Safe.throwRuntime | exact Safe.getOffset
  | exact Safe.seek _ | exact Safe.advance _ | exact Safe.inputLen | exact Safe.getSlice _ _
  | exact Safe.readVarNumber | exact Safe.readTypeAndLength _ | exact Safe.readNestedTlvsStart _
  | exact Safe.peekType _ _ | exact Safe.readNonNegativeInteger _
  | exact Safe.readNonNegativeIntegerTlv _ | exact Safe.readOptionalNonNegativeIntegerTlv _ _
  | exact Safe.readOptionalNonNegativeIntegerTlvAsFloat _ _
  | exact Safe.readBlobTlv _ | exact Safe.readOptionalBlobTlv _ _ | exact Safe.readBooleanTlv _ _
  | exact Safe.skipTlv _ | exact Safe.skipOptionalTlv _ _ | exact Safe.finishNestedTlvs _ _
  | exact Safe.decodeNameComponent | exact Safe.decodeNameFrom
  | assumption
  | (refine Safe.bind ?_ (fun _ => ?_))
  | (refine Safe.ite ?_ ?_)
  | (refine Safe.optionally _ _ _ ?_)
  | (dsimp only)
  | split))

/-- Prove `Stable` of a do block from the facts about its parts. -/
macro "stable_dec" : tactic => `(tactic| repeat' (first
  | exact Stable.pure _ | exact Stable.throw _ | exact Stable.getOffset
  | exact Stable.readVarNumber | exact Stable.readTypeAndLength _ | exact Stable.readNestedTlvsStart _
  | exact Stable.peekType _ _ | exact Stable.readNonNegativeInteger _
  | exact Stable.readNonNegativeIntegerTlv _ | exact Stable.readOptionalNonNegativeIntegerTlv _ _
  | exact Stable.readOptionalNonNegativeIntegerTlvAsFloat _ _
  | exact Stable.readBlobTlv _ | exact Stable.readOptionalBlobTlv _ _ | exact Stable.readBooleanTlv _ _
  | exact Stable.skipTlv _ | exact Stable.skipOptionalTlv _ _ | exact Stable.finishNestedTlvs _ _
  | exact Stable.decodeNameComponent | exact Stable.decodeNameFrom
  | exact Stable.lift _
  | assumption
  | (refine Stable.bind ?_ (fun _ => ?_))
  | (refine Stable.ite ?_ ?_)
  | (refine Stable.optionally _ _ _ ?_)
  | (dsimp only)
  | split))

/-! ### Key locator, meta info, signature, data -/

theorem Safe.decodeKeyLocator (t : Nat) : Safe (decodeKeyLocator t) :=
  (Safe.readNestedTlvsStart _).bind fun _ => Safe.getOffset.bind fun _ => Safe.ite (Safe.pure _) <|
    (Safe.peekType _ _).bind fun _ => Safe.ite
      (Safe.decodeNameFrom.bind fun _ => (Safe.finishNestedTlvs _ _).bind fun _ => Safe.pure _) <|
    (Safe.peekType _ _).bind fun _ => Safe.ite
      ((Safe.readBlobTlv _).bind fun _ => (Safe.finishNestedTlvs _ _).bind fun _ => Safe.pure _)
      Safe.throwRuntime

theorem Stable.decodeKeyLocator (t : Nat) : Stable (decodeKeyLocator t) :=
  (Stable.readNestedTlvsStart _).bind fun _ => Stable.getOffset.bind fun _ => Stable.ite (Stable.pure _) <|
    (Stable.peekType _ _).bind fun _ => Stable.ite
      (Stable.decodeNameFrom.bind fun _ => (Stable.finishNestedTlvs _ _).bind fun _ => Stable.pure _) <|
    (Stable.peekType _ _).bind fun _ => Stable.ite
      ((Stable.readBlobTlv _).bind fun _ => (Stable.finishNestedTlvs _ _).bind fun _ => Stable.pure _)
      (Stable.throw _)

theorem Safe.decodeFinalBlockId : Safe decodeFinalBlockId := by
  unfold PyNDN.decodeFinalBlockId; safe_dec
theorem Stable.decodeFinalBlockId : Stable decodeFinalBlockId := by
  unfold PyNDN.decodeFinalBlockId; stable_dec
theorem Safe.decodeMetaInfo (old : MetaInfo) : Safe (decodeMetaInfo old) := by
  have := Safe.decodeFinalBlockId
  unfold PyNDN.decodeMetaInfo; safe_dec
theorem Stable.decodeMetaInfo (old : MetaInfo) : Stable (decodeMetaInfo old) := by
  have := Stable.decodeFinalBlockId
  unfold PyNDN.decodeMetaInfo; stable_dec

theorem Safe.decodeValidityPeriod : Safe decodeValidityPeriod :=
  (Safe.readNestedTlvsStart _).bind fun _ => (Safe.readBlobTlv _).bind fun _ =>
    (Safe.lift fun _ h => Or.inl (utf8Decode_safe _ _ h)).bind fun _ =>
    (Safe.lift (fromIsoString_safe _)).bind fun _ => (Safe.readBlobTlv _).bind fun _ =>
    (Safe.lift fun _ h => Or.inl (utf8Decode_safe _ _ h)).bind fun _ =>
    (Safe.lift (fromIsoString_safe _)).bind fun _ =>
    (Safe.finishNestedTlvs _ _).bind fun _ => Safe.pure _

theorem Stable.decodeValidityPeriod : Stable decodeValidityPeriod :=
  (Stable.readNestedTlvsStart _).bind fun _ => (Stable.readBlobTlv _).bind fun _ =>
    (Stable.lift _).bind fun _ =>
    (Stable.lift _).bind fun _ => (Stable.readBlobTlv _).bind fun _ =>
    (Stable.lift _).bind fun _ => (Stable.lift _).bind fun _ =>
    (Stable.finishNestedTlvs _ _).bind fun _ => Stable.pure _

theorem Safe.decodeOptionalValidity (e : Nat) : Safe (decodeOptionalValidity e) :=
  Safe.optionally _ _ _ Safe.decodeValidityPeriod
theorem Stable.decodeOptionalValidity (e : Nat) : Stable (decodeOptionalValidity e) :=
  Stable.optionally _ _ _ Stable.decodeValidityPeriod

theorem Safe.decodeSigFields (b e t : Nat) : Safe (decodeSigFields b e t) := by
  have h1 := Safe.decodeOptionalValidity e
  have h2 := Safe.decodeKeyLocator 28
  unfold PyNDN.decodeSigFields; safe_dec
theorem Stable.decodeSigFields (b e t : Nat) : StableIf e (decodeSigFields b e t) := by
  have h1 := Stable.decodeOptionalValidity e
  have h2 := Stable.decodeKeyLocator 28
  unfold PyNDN.decodeSigFields
  refine StableIf.ite ?_ (StableIf.ite ?_ (StableIf.ite ?_ (StableIf.ite ?_ ?_)))
  · apply Stable.to; stable_dec
  · apply Stable.to; stable_dec
  · apply Stable.to; stable_dec
  · apply Stable.to; stable_dec
  · refine (StableIf.getSlice _ _).bind fun _ => ?_
    apply Stable.to; stable_dec

theorem Safe.decodeSignatureInfo : Safe decodeSignatureInfo := 
  Safe.getOffset.bind fun _ => (Safe.readNestedTlvsStart _).bind fun _ =>
    (Safe.readNonNegativeIntegerTlv _).bind fun _ => (Safe.decodeSigFields _ _ _).bind fun _ =>
    (Safe.finishNestedTlvs _ _).bind fun _ => Safe.pure _

theorem Stable.decodeSignatureInfo : Stable decodeSignatureInfo :=
  Stable.getOffset.bind fun _ => Stable.nested fun e =>
    ((Stable.readNonNegativeIntegerTlv _).to e).bind fun _ =>
    (Stable.decodeSigFields _ e _).bind fun _ =>
    ((Stable.finishNestedTlvs _ _).bind fun _ => Stable.pure _).to e

theorem Safe.decodeDataFrom (old : Data) : Safe (decodeDataFrom old) := by
  have h1 := Safe.decodeMetaInfo old.metaInfo
  have h2 := Safe.decodeSignatureInfo
  unfold PyNDN.decodeDataFrom; safe_dec
theorem Stable.decodeDataFrom (old : Data) : Stable (decodeDataFrom old) := by
  have h1 := Stable.decodeMetaInfo old.metaInfo
  have h2 := Stable.decodeSignatureInfo
  unfold PyNDN.decodeDataFrom; stable_dec

theorem Progress.decodeDelegation (s : DelegationSet) : Progress (decodeDelegation s) :=
  (Progress.readTypeAndLength _).bind fun _ => (Progress.readNonNegativeIntegerTlv _).forward.bind
    fun _ => Progress.decodeNameFrom.forward.bind fun _ => Forward.pure _
theorem Safe.decodeDelegation (s : DelegationSet) : Safe (decodeDelegation s) := by
  unfold PyNDN.decodeDelegation; safe_dec
theorem Stable.decodeDelegation (s : DelegationSet) : Stable (decodeDelegation s) := by
  unfold PyNDN.decodeDelegation; stable_dec
theorem Safe.decodeDelegationSetFrom (e : Nat) : Safe (decodeDelegationSetFrom e) :=
  Safe.whileBefore Safe.decodeDelegation Progress.decodeDelegation _
theorem Stable.decodeDelegationSetFrom (e : Nat) : Stable (decodeDelegationSetFrom e) :=
  Stable.whileBefore Stable.decodeDelegation _

theorem Forward.readBooleanTlv (t e : Nat) : Forward (readBooleanTlv t e) :=
  (Forward.peekType t e).bind fun _ => Forward.ite
    ((Progress.readTypeAndLength t).forward.bind fun _ => (Forward.advance _).bind fun _ =>
      Forward.pure _) (Forward.pure _)

theorem peekType_true_lt {t e : Nat} {inp : Bytes} {off off' : Nat}
    (h : (peekType t e).run inp off = .ok (true, off')) : off < e := by
  unfold peekType at h
  rw [Dec.bind_ok (getOffset_run _ _)] at h
  split at h
  · cases h
  · omega

/-- Reading a flag that was just seen consumes at least one byte. -/
theorem Progress.decodeExcludeEntry (e : Nat) (ex : Exclude) : Progress (decodeExcludeEntry e ex) := by
  intro inp off a off' h
  unfold PyNDN.decodeExcludeEntry at h
  obtain ⟨b, o, h1, h2⟩ := Dec.bind_eq_ok.mp h
  have ho := peekType_offset h1
  subst ho
  cases b with
  | true =>
    simp only [if_true] at h2
    unfold readBooleanTlv at h2
    obtain ⟨x, o2, h3, h4⟩ := Dec.bind_eq_ok.mp h2
    rw [Dec.bind_ok h1] at h3
    simp only [if_true] at h3
    have := ((Progress.readTypeAndLength 19).bind fun l => (Forward.advance l).bind fun _ =>
      Forward.pure true) _ _ _ _ h3
    cases h4
    omega
  | false =>
    simp only [Bool.false_eq_true, if_false] at h2
    exact (Progress.decodeNameComponent.bind fun _ => Forward.pure _) _ _ _ _ h2

theorem Safe.decodeExcludeEntry (e : Nat) (s : Exclude) : Safe (decodeExcludeEntry e s) := by
  unfold PyNDN.decodeExcludeEntry; safe_dec
theorem Stable.decodeExcludeEntry (e : Nat) (s : Exclude) : Stable (decodeExcludeEntry e s) := by
  unfold PyNDN.decodeExcludeEntry; stable_dec
theorem Safe.decodeExclude : Safe decodeExclude :=
  (Safe.readNestedTlvsStart _).bind fun e =>
    (Safe.whileBefore (Safe.decodeExcludeEntry e) (Progress.decodeExcludeEntry e) _).bind fun _ =>
    (Safe.finishNestedTlvs _ _).bind fun _ => Safe.pure _
theorem Stable.decodeExclude : Stable decodeExclude :=
  (Stable.readNestedTlvsStart _).bind fun e =>
    (Stable.whileBefore (Stable.decodeExcludeEntry e) _).bind fun _ =>
    (Stable.finishNestedTlvs _ _).bind fun _ => Stable.pure _

theorem Safe.decodeSelectors : Safe decodeSelectors := by
  have h1 := Safe.decodeExclude
  have h2 := Safe.decodeKeyLocator 15
  unfold PyNDN.decodeSelectors; safe_dec
theorem Stable.decodeSelectors : Stable decodeSelectors := by
  have h1 := Stable.decodeExclude
  have h2 := Stable.decodeKeyLocator 15
  unfold PyNDN.decodeSelectors; stable_dec

theorem Safe.decodeForwardingHint : Safe decodeForwardingHint :=
  (Safe.readNestedTlvsStart _).bind fun e => (Safe.decodeDelegationSetFrom e).bind fun _ =>
    (Safe.finishNestedTlvs _ _).bind fun _ => Safe.pure _
theorem Stable.decodeForwardingHint : Stable decodeForwardingHint :=
  (Stable.readNestedTlvsStart _).bind fun e => (Stable.decodeDelegationSetFrom e).bind fun _ =>
    (Stable.finishNestedTlvs _ _).bind fun _ => Stable.pure _

theorem Safe.decodeLinkBytes : Safe decodeLinkBytes := by
  unfold PyNDN.decodeLinkBytes; safe_dec
theorem Stable.decodeLinkBytes : Stable decodeLinkBytes := by
  intro inp off a off' hle h
  unfold PyNDN.decodeLinkBytes at h
  rw [Dec.bind_ok (getOffset_run _ _)] at h
  obtain ⟨e, o, h1, h2⟩ := Dec.bind_eq_ok.mp h
  obtain ⟨l1, l2, s1⟩ := Stable.readNestedTlvsStart _ _ _ _ _ hle h1
  have hb := readNestedTlvsStart_bound h1
  rw [Dec.bind_ok (seek_run _ _ _), Dec.bind_ok (getSlice_run _ _ _ _)] at h2
  cases h2
  refine ⟨by omega, hb.2, fun ex => ?_⟩
  unfold PyNDN.decodeLinkBytes
  rw [Dec.bind_ok (getOffset_run _ _), Dec.bind_ok (s1 ex), Dec.bind_ok (seek_run _ _ _),
    Dec.bind_ok (getSlice_run _ _ _ _), slice_append hb.2]
  rfl

theorem Safe.decodeInterestV02 (old : Interest) : Safe (decodeInterestV02 old) := by
  have h1 := Safe.decodeSelectors
  have h2 := Safe.decodeForwardingHint
  have h3 := Safe.decodeLinkBytes
  unfold PyNDN.decodeInterestV02; safe_dec
theorem Stable.decodeInterestV02 (old : Interest) : Stable (decodeInterestV02 old) := by
  have h1 := Stable.decodeSelectors
  have h2 := Stable.decodeForwardingHint
  have h3 := Stable.decodeLinkBytes
  unfold PyNDN.decodeInterestV02; stable_dec

theorem Safe.decodeInterestV03 : Safe decodeInterestV03 := by
  have := Safe.decodeForwardingHint
  unfold PyNDN.decodeInterestV03; safe_dec
theorem Stable.decodeInterestV03 : Stable decodeInterestV03 := by
  have := Stable.decodeForwardingHint
  unfold PyNDN.decodeInterestV03; stable_dec

theorem Safe.decodeSomeName : Safe decodeSomeName := by unfold PyNDN.decodeSomeName; safe_dec
theorem Stable.decodeSomeName : Stable decodeSomeName := by unfold PyNDN.decodeSomeName; stable_dec
theorem Safe.decodeUri (e : Nat) : Safe (decodeUri e) :=
  (Safe.readOptionalBlobTlv _ _).bind fun _ => Safe.lift (strOfBlob_safe _)
theorem Stable.decodeUri (e : Nat) : Stable (decodeUri e) :=
  (Stable.readOptionalBlobTlv _ _).bind fun _ => Stable.lift _
theorem Safe.decodeFlags : Safe decodeFlags := by unfold PyNDN.decodeFlags; safe_dec
theorem Stable.decodeFlags : Stable decodeFlags := by unfold PyNDN.decodeFlags; stable_dec
theorem Safe.decodeStrategy : Safe decodeStrategy := by unfold PyNDN.decodeStrategy; safe_dec
theorem Stable.decodeStrategy : Stable decodeStrategy := by unfold PyNDN.decodeStrategy; stable_dec

theorem Safe.decodeControlParametersFrom : Safe decodeControlParametersFrom :=
  (Safe.readNestedTlvsStart _).bind fun _ =>
  (Safe.optionally _ _ _ Safe.decodeSomeName).bind fun _ =>
  (Safe.readOptionalNonNegativeIntegerTlv _ _).bind fun _ =>
  (Safe.optionally _ _ _ (Safe.decodeUri _)).bind fun _ =>
  (Safe.skipOptionalTlv _ _).bind fun _ =>
  (Safe.readOptionalNonNegativeIntegerTlv _ _).bind fun _ =>
  (Safe.readOptionalNonNegativeIntegerTlv _ _).bind fun _ =>
  (Safe.readOptionalNonNegativeIntegerTlv _ _).bind fun _ =>
  (Safe.skipOptionalTlv _ _).bind fun _ =>
  (Safe.skipOptionalTlv _ _).bind fun _ =>
  (Safe.skipOptionalTlv _ _).bind fun _ =>
  (Safe.skipOptionalTlv _ _).bind fun _ =>
  (Safe.skipOptionalTlv _ _).bind fun _ =>
  (Safe.optionally _ _ _ Safe.decodeFlags).bind fun _ =>
  (Safe.skipOptionalTlv _ _).bind fun _ =>
  (Safe.optionally _ _ _ Safe.decodeStrategy).bind fun _ =>
  (Safe.readOptionalNonNegativeIntegerTlv _ _).bind fun _ =>
  (Safe.finishNestedTlvs _ _).bind fun _ =>
  Safe.pure _

theorem Stable.decodeControlParametersFrom : Stable decodeControlParametersFrom :=
  (Stable.readNestedTlvsStart _).bind fun _ =>
  (Stable.optionally _ _ _ Stable.decodeSomeName).bind fun _ =>
  (Stable.readOptionalNonNegativeIntegerTlv _ _).bind fun _ =>
  (Stable.optionally _ _ _ (Stable.decodeUri _)).bind fun _ =>
  (Stable.skipOptionalTlv _ _).bind fun _ =>
  (Stable.readOptionalNonNegativeIntegerTlv _ _).bind fun _ =>
  (Stable.readOptionalNonNegativeIntegerTlv _ _).bind fun _ =>
  (Stable.readOptionalNonNegativeIntegerTlv _ _).bind fun _ =>
  (Stable.skipOptionalTlv _ _).bind fun _ =>
  (Stable.skipOptionalTlv _ _).bind fun _ =>
  (Stable.skipOptionalTlv _ _).bind fun _ =>
  (Stable.skipOptionalTlv _ _).bind fun _ =>
  (Stable.skipOptionalTlv _ _).bind fun _ =>
  (Stable.optionally _ _ _ Stable.decodeFlags).bind fun _ =>
  (Stable.skipOptionalTlv _ _).bind fun _ =>
  (Stable.optionally _ _ _ Stable.decodeStrategy).bind fun _ =>
  (Stable.readOptionalNonNegativeIntegerTlv _ _).bind fun _ =>
  (Stable.finishNestedTlvs _ _).bind fun _ =>
  Stable.pure _

theorem Safe.decodeControlResponseFrom : Safe decodeControlResponseFrom := by
  have h : ∀ b, Safe (Dec.lift (strOfBlob b)) := fun b => Safe.lift (strOfBlob_safe b)
  have h2 := Safe.decodeControlParametersFrom
  unfold PyNDN.decodeControlResponseFrom PyNDN.decodeBody
  repeat' (first | exact h _ | safe_dec)
theorem Stable.decodeControlResponseFrom : Stable decodeControlResponseFrom := by
  have h2 := Stable.decodeControlParametersFrom
  unfold PyNDN.decodeControlResponseFrom PyNDN.decodeBody; stable_dec

end PyNDN
