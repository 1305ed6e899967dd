import Verif.Lemmas.Safety
/-
`Stable` for the decoder primitives.
-/
namespace PyNDN

theorem Stable.pure (a : α) : Stable (pure a) := by
  intro inp off x off' hle h; cases h; exact ⟨Nat.le_refl _, hle, fun _ => rfl⟩
theorem Stable.throw (e : Err) : Stable (Dec.throw e : Dec α) := by
  intro inp off x off' hle h; cases h
theorem Stable.getOffset : Stable getOffset := by
  intro inp off x off' hle h; cases h; exact ⟨Nat.le_refl _, hle, fun _ => rfl⟩
theorem Stable.lift (r : Except Err α) : Stable (Dec.lift r) := by
  intro inp off a off' hle h
  unfold Dec.lift at h ⊢
  simp only at h ⊢
  cases r with
  | ok x => cases h; exact ⟨Nat.le_refl _, hle, fun _ => rfl⟩
  | error e => cases h
theorem Stable.bind {m : Dec α} {f : α → Dec β} (hm : Stable m) (hf : ∀ a, Stable (f a)) :
    Stable (m >>= f) := by
  intro inp off b off' hle h
  obtain ⟨a, o, h1, h2⟩ := Dec.bind_eq_ok.mp h
  obtain ⟨l1, l2, s1⟩ := hm _ _ _ _ hle h1
  obtain ⟨l3, l4, s2⟩ := hf a _ _ _ _ l2 h2
  exact ⟨by omega, l4, fun ex => by rw [Dec.bind_ok (s1 ex)]; exact s2 ex⟩
theorem Stable.ite {c : Prop} [Decidable c] {m n : Dec α} (hm : Stable m) (hn : Stable n) :
    Stable (if c then m else n) := by split <;> assumption

theorem drop_append_ex {inp bs : Bytes} {off : Nat} (hle : off ≤ inp.length) (ex : Bytes)
    (h : inp.drop off = bs) : (inp ++ ex).drop off = bs ++ ex := by
  rw [List.drop_append, h, Nat.sub_eq_zero_of_le hle]; rfl

theorem drop_eq_append_le {inp bs rest : Bytes} {off : Nat} (hle : off ≤ inp.length)
    (h : inp.drop off = bs ++ rest) : off + bs.length ≤ inp.length := by
  have : (inp.drop off).length = (bs ++ rest).length := by rw [h]
  simp only [List.length_drop, List.length_append] at this
  omega

theorem Stable.readVarNumber : Stable readVarNumber := by
  intro inp off n off' hle h
  obtain ⟨bs, hf, hd, rfl⟩ := readVarNumber_inv h
  refine ⟨by omega, drop_eq_append_le hle hd, fun ex => ?_⟩
  have := drop_append_ex hle ex hd
  rw [List.append_assoc] at this
  exact readVarNumber_form hf this

theorem readTypeAndLength_inv {inp : Bytes} {off l off' t : Nat}
    (h : (readTypeAndLength t).run inp off = .ok (l, off')) :
    ∃ tb lb, Spec.VarNumForm t tb ∧ Spec.VarNumForm l lb ∧
      inp.drop off = tb ++ (lb ++ inp.drop off') ∧ off' = off + tb.length + lb.length ∧
      off' + l ≤ inp.length := by
  unfold readTypeAndLength at h
  obtain ⟨t', o1, h1, h3⟩ := Dec.bind_eq_ok.mp h
  obtain ⟨tb, ht, hd1, rfl⟩ := readVarNumber_inv h1
  split at h3
  · cases h3
  · next hne =>
    simp at hne
    obtain ⟨l', o2, h2, h4⟩ := Dec.bind_eq_ok.mp h3
    obtain ⟨lb, hl, hd2, rfl⟩ := readVarNumber_inv h2
    rw [Dec.bind_ok (getOffset_run _ _), Dec.bind_ok (inputLen_run _ _)] at h4
    split at h4
    · cases h4
    · cases h4
      subst hne
      exact ⟨tb, lb, ht, hl, by rw [hd1, hd2], rfl, by omega⟩

theorem readTypeAndLength_form {inp : Bytes} {off l t : Nat} {tb lb rest : Bytes}
    (ht : Spec.VarNumForm t tb) (hl : Spec.VarNumForm l lb)
    (hd : inp.drop off = tb ++ (lb ++ rest)) (hle : off + tb.length + lb.length + l ≤ inp.length) :
    (readTypeAndLength t).run inp off = .ok (l, off + tb.length + lb.length) := by
  unfold readTypeAndLength
  rw [Dec.bind_ok (readVarNumber_form ht hd)]
  simp only [ne_eq, not_true, if_false]
  rw [Dec.bind_ok (readVarNumber_form hl (drop_add hd)), Dec.bind_ok (getOffset_run _ _),
    Dec.bind_ok (inputLen_run _ _), if_neg (by omega)]
  rfl

theorem Stable.readTypeAndLength (t : Nat) : Stable (readTypeAndLength t) := by
  intro inp off l off' hle h
  obtain ⟨tb, lb, ht, hl, hd, rfl, hle'⟩ := readTypeAndLength_inv h
  refine ⟨by omega, by omega, fun ex => ?_⟩
  have := drop_append_ex hle ex hd
  rw [List.append_assoc, List.append_assoc] at this
  exact readTypeAndLength_form ht hl this (by simp only [List.length_append]; omega)

theorem Stable.readNestedTlvsStart (t : Nat) : Stable (readNestedTlvsStart t) :=
  (Stable.readTypeAndLength t).bind fun _ => Stable.getOffset.bind fun _ => Stable.pure _

theorem Stable.peekType (t e : Nat) : Stable (peekType t e) := by
  intro inp off b off' hle h
  have ho := peekType_offset h
  subst ho
  refine ⟨Nat.le_refl _, hle, fun ex => ?_⟩
  unfold PyNDN.peekType at h ⊢
  rw [Dec.bind_ok (getOffset_run _ _)] at h ⊢
  split at h
  · next hc => rw [if_pos hc]; cases h; rfl
  · next hc =>
    rw [if_neg hc]
    obtain ⟨n, o, h1, h⟩ := Dec.bind_eq_ok.mp h
    rw [Dec.bind_ok ((Stable.readVarNumber _ _ _ _ hle h1).2.2 ex)]
    rw [Dec.bind_ok (seek_run _ _ _)] at h ⊢
    cases h; rfl

theorem Stable.finishNestedTlvs (e : Nat) (sc : Bool) : Stable (finishNestedTlvs e sc) := by
  intro inp off x off' hle h
  obtain ⟨rfl, bs, he, hd, hl, hle'⟩ := finishNestedTlvs_inv h
  refine ⟨by omega, hle' hle, fun ex => ?_⟩
  have := drop_append_ex hle ex hd
  rw [List.append_assoc] at this
  have := finishNestedTlvs_elements he this
  rwa [← hl] at this

theorem slice_append {inp ex : Bytes} {a b : Nat} (h : b ≤ inp.length) :
    ((inp ++ ex).take b).drop a = (inp.take b).drop a := by
  rw [List.take_append_of_le_length h]

/-- Reading the header and then the value as a slice. -/
theorem Stable.readBlobTlv (t : Nat) : Stable (readBlobTlv t) := by
  intro inp off v off' hle h
  unfold PyNDN.readBlobTlv at h
  obtain ⟨l, o1, h1, h⟩ := Dec.bind_eq_ok.mp h
  rw [Dec.bind_ok (getOffset_run _ _), Dec.bind_ok (getSlice_run _ _ _ _),
    Dec.bind_ok (advance_run _ _ _)] at h
  cases h
  obtain ⟨tb, lb, ht, hl, hd, ho, hle'⟩ := readTypeAndLength_inv h1
  refine ⟨by omega, hle', fun ex => ?_⟩
  unfold PyNDN.readBlobTlv
  rw [Dec.bind_ok ((Stable.readTypeAndLength t _ _ _ _ hle h1).2.2 ex),
    Dec.bind_ok (getOffset_run _ _), Dec.bind_ok (getSlice_run _ _ _ _),
    Dec.bind_ok (advance_run _ _ _), slice_append hle']
  rfl

theorem Stable.readOptionalBlobTlv (t e : Nat) : Stable (readOptionalBlobTlv t e) :=
  (Stable.peekType t e).bind fun _ => Stable.ite
    ((Stable.readBlobTlv t).bind fun _ => Stable.pure _) (Stable.pure _)

theorem Stable.skipTlv (t : Nat) : Stable (skipTlv t) := by
  intro inp off v off' hle h
  unfold PyNDN.skipTlv at h
  obtain ⟨l, o1, h1, h⟩ := Dec.bind_eq_ok.mp h
  cases h
  obtain ⟨tb, lb, ht, hl, hd, ho, hle'⟩ := readTypeAndLength_inv h1
  refine ⟨by omega, hle', fun ex => ?_⟩
  unfold PyNDN.skipTlv
  rw [Dec.bind_ok ((Stable.readTypeAndLength t _ _ _ _ hle h1).2.2 ex)]
  rfl

theorem Stable.skipOptionalTlv (t e : Nat) : Stable (skipOptionalTlv t e) :=
  (Stable.peekType t e).bind fun _ => Stable.ite (Stable.skipTlv t) (Stable.pure _)

theorem Stable.readBooleanTlv (t e : Nat) : Stable (readBooleanTlv t e) := by
  refine (Stable.peekType t e).bind fun _ => Stable.ite ?_ (Stable.pure _)
  have : (do let length ← PyNDN.readTypeAndLength t; advance length; return true : Dec Bool)
      = (do PyNDN.skipTlv t; return true) := by
    unfold PyNDN.skipTlv
    show (⟨_⟩ : Dec Bool) = ⟨_⟩
    congr 1
    funext inp off
    simp only [Bind.bind, Dec.andThen]
    cases (PyNDN.readTypeAndLength t).run inp off <;> rfl
  rw [this]
  exact (Stable.skipTlv t).bind fun _ => Stable.pure _

theorem getElem?_append_some {inp ex : Bytes} {i : Nat} {b : UInt8} (h : inp[i]? = some b) :
    (inp ++ ex)[i]? = some b ∧ i < inp.length := by
  obtain ⟨hlt, hb⟩ := List.getElem?_eq_some_iff.mp h
  rw [List.getElem?_append_left hlt]
  exact ⟨h, hlt⟩

theorem Stable.peekByte (i : Nat) : Stable (peekByte i) := by
  intro inp off n off' hle h
  obtain ⟨b, hb, rfl, rfl⟩ := peekByte_eq_ok.mp h
  exact ⟨Nat.le_refl _, hle, fun ex => peekByte_eq_ok.mpr ⟨b, (getElem?_append_some hb).1, rfl, rfl⟩⟩

theorem Stable.catchIndex {m : Dec α} (h : Stable m) : Stable (catchIndex m) := by
  intro inp off a off' hle h'
  obtain ⟨h1, h2, h3⟩ := h _ _ _ _ hle (catchIndex_eq_ok.mp h')
  exact ⟨h1, h2, fun ex => catchIndex_ok (h3 ex)⟩

/-- Reading byte `i` and later advancing `i + 1`. -/
theorem Stable.peekAdvance (i : Nat) (f : Nat → α) :
    Stable (PyNDN.peekByte i >>= fun b => advance (i + 1) >>= fun _ => Pure.pure (f b) : Dec α) := by
  intro inp off a off' hle h
  obtain ⟨n, o, h1, h3⟩ := Dec.bind_eq_ok.mp h
  obtain ⟨b, hb, hn, ho⟩ := peekByte_eq_ok.mp h1
  rw [Dec.bind_ok (advance_run _ _ _)] at h3
  cases h3
  subst ho
  have h2 := (getElem?_append_some (ex := []) hb).2
  refine ⟨by omega, by omega, fun ex => ?_⟩
  rw [Dec.bind_ok ((Stable.peekByte i _ _ _ _ hle h1).2.2 ex)]
  rfl

theorem Stable.readNonNegativeInteger (l : Nat) : Stable (readNonNegativeInteger l) := by
  unfold PyNDN.readNonNegativeInteger
  apply Stable.catchIndex
  split
  · subst l; exact Stable.peekAdvance 0 _
  split
  · subst l; exact (Stable.peekByte 0).bind fun _ => Stable.peekAdvance 1 _
  split
  · subst l
    exact (Stable.peekByte 0).bind fun _ => (Stable.peekByte 1).bind fun _ =>
      (Stable.peekByte 2).bind fun _ => Stable.peekAdvance 3 _
  split
  · subst l
    exact (Stable.peekByte 0).bind fun _ => (Stable.peekByte 1).bind fun _ =>
      (Stable.peekByte 2).bind fun _ => (Stable.peekByte 3).bind fun _ =>
      (Stable.peekByte 4).bind fun _ => (Stable.peekByte 5).bind fun _ =>
      (Stable.peekByte 6).bind fun _ => Stable.peekAdvance 7 _
  · exact Stable.throw _

theorem Stable.readNonNegativeIntegerTlv (t : Nat) : Stable (readNonNegativeIntegerTlv t) :=
  (Stable.readTypeAndLength t).bind fun _ => Stable.readNonNegativeInteger _

theorem Stable.readOptionalNonNegativeIntegerTlv (t e : Nat) :
    Stable (readOptionalNonNegativeIntegerTlv t e) :=
  (Stable.peekType t e).bind fun _ => Stable.ite
    ((Stable.readNonNegativeIntegerTlv t).bind fun _ => Stable.pure _) (Stable.pure _)

theorem loopWhile_stable {σ : Type} {e : Nat} {body : σ → Dec σ} (hs : ∀ s, Stable (body s))
    (fuel : Nat) : ∀ s, Stable (loopWhile e body fuel s) := by
  induction fuel with
  | zero =>
    intro s
    unfold loopWhile
    exact Stable.getOffset.bind fun _ => Stable.ite (Stable.throw _) (Stable.pure _)
  | succ fuel ih =>
    intro s
    unfold loopWhile
    exact Stable.getOffset.bind fun _ => Stable.ite ((hs s).bind fun _ => ih _) (Stable.pure _)

theorem Stable.whileBefore {σ : Type} {e : Nat} {body : σ → Dec σ} (hs : ∀ s, Stable (body s))
    (s : σ) : Stable (whileBefore e body s) :=
  Stable.getOffset.bind fun _ => loopWhile_stable hs _ _

/-- Look at the next type number without moving (the `getOffset / readVarNumber / seek` idiom,
tlv_0_2_wire_format.py:840-843). -/
theorem Stable.peekThen {f : Nat → Dec α} (hf : ∀ a, Stable (f a)) :
    Stable (PyNDN.getOffset >>= fun o => PyNDN.readVarNumber >>= fun t => PyNDN.seek o >>= fun _ => f t) := by
  intro inp off a off' hle h
  rw [Dec.bind_ok (getOffset_run _ _)] at h
  obtain ⟨n, o, h1, h⟩ := Dec.bind_eq_ok.mp h
  rw [Dec.bind_ok (seek_run _ _ _)] at h
  obtain ⟨l1, l2, s⟩ := hf n _ _ _ _ hle h
  refine ⟨l1, l2, fun ex => ?_⟩
  rw [Dec.bind_ok (getOffset_run _ _), Dec.bind_ok ((Stable.readVarNumber _ _ _ _ hle h1).2.2 ex),
    Dec.bind_ok (seek_run _ _ _)]
  exact s ex

theorem Safe.peekThen {f : Nat → Dec α} (hf : ∀ a, Safe (f a)) :
    Safe (PyNDN.getOffset >>= fun o => PyNDN.readVarNumber >>= fun t => PyNDN.seek o >>= fun _ => f t) :=
  Safe.getOffset.bind fun _ => Safe.readVarNumber.bind fun _ => (Safe.seek _).bind fun _ => hf _

theorem Progress.peekThen {f : Nat → Dec α} (hf : ∀ a, Progress (f a)) :
    Progress (PyNDN.getOffset >>= fun o => PyNDN.readVarNumber >>= fun t => PyNDN.seek o >>= fun _ => f t) := by
  intro inp off a off' h
  rw [Dec.bind_ok (getOffset_run _ _)] at h
  obtain ⟨n, o, h1, h⟩ := Dec.bind_eq_ok.mp h
  rw [Dec.bind_ok (seek_run _ _ _)] at h
  exact hf n _ _ _ _ h

/-! ### Names -/

theorem componentOf_safe (t : Nat) (v : Bytes) :
    ∀ e, componentOf t v = .error e → e = .value ∨ e = .runtime := by
  intro e h
  unfold componentOf Component.fromImplicitSha256Digest Component.fromParametersSha256Digest at h
  repeat' split at h
  all_goals first | cases h; exact Or.inr rfl | cases h

theorem Safe.decodeNameComponent : Safe decodeNameComponent :=
  Safe.peekThen fun _ => (Safe.readBlobTlv _).bind fun _ => Safe.lift (componentOf_safe _ _)
theorem Stable.decodeNameComponent : Stable decodeNameComponent :=
  Stable.peekThen fun _ => (Stable.readBlobTlv _).bind fun _ => Stable.lift _
theorem Progress.decodeNameComponent : Progress decodeNameComponent :=
  Progress.peekThen fun _ => (Progress.readBlobTlv _).bind fun _ => Forward.lift _

theorem Safe.decodeNameFrom : Safe decodeNameFrom :=
  (Safe.readNestedTlvsStart _).bind fun _ => Safe.getOffset.bind fun _ =>
    (Safe.whileBefore (fun _ => Safe.getOffset.bind fun _ => Safe.decodeNameComponent.bind fun _ =>
        Safe.pure _)
      (fun _ => Progress.bind' Forward.getOffset fun _ => Progress.decodeNameComponent.bind fun _ =>
        Forward.pure _) _).bind fun _ =>
    (Safe.finishNestedTlvs _ _).bind fun _ => Safe.pure _

theorem Stable.decodeNameFrom : Stable decodeNameFrom :=
  (Stable.readNestedTlvsStart _).bind fun _ => Stable.getOffset.bind fun _ =>
    (Stable.whileBefore (fun _ => Stable.getOffset.bind fun _ =>
      Stable.decodeNameComponent.bind fun _ => Stable.pure _) _).bind fun _ =>
    (Stable.finishNestedTlvs _ _).bind fun _ => Stable.pure _

theorem Progress.decodeNameFrom : Progress decodeNameFrom :=
  (Progress.readNestedTlvsStart _).bind fun _ => Forward.getOffset.bind fun _ =>
    (Forward.whileBefore (fun _ => Forward.getOffset.bind fun _ =>
      Progress.decodeNameComponent.forward.bind fun _ => Forward.pure _) _).bind fun _ =>
    (Forward.finishNestedTlvs _ _).bind fun _ => Forward.pure _

end PyNDN
