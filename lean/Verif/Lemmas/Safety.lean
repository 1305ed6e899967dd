import Verif.Lemmas.Read
import Verif.Model.Name
/-
Compositional predicates on decoding actions:
* `Safe`: only ValueError or RuntimeError can come out;
* `Stable`: a success stays inside the input and is unchanged when bytes are appended to the input;
* `Progress`: a success consumes at least one byte.
-/
namespace PyNDN

def Safe (m : Dec α) : Prop :=
  ∀ inp off e, m.run inp off = .error e → e = .value ∨ e = .runtime

def Stable (m : Dec α) : Prop :=
  ∀ inp off a off', off ≤ inp.length → m.run inp off = .ok (a, off') →
    off ≤ off' ∧ off' ≤ inp.length ∧ ∀ ex, m.run (inp ++ ex) off = .ok (a, off')

def Progress (m : Dec α) : Prop :=
  ∀ inp off a off', m.run inp off = .ok (a, off') → off < off'

/-- A success never moves backwards. -/
def Forward (m : Dec α) : Prop :=
  ∀ inp off a off', m.run inp off = .ok (a, off') → off ≤ off'

theorem Safe.bind {m : Dec α} {f : α → Dec β} (hm : Safe m) (hf : ∀ a, Safe (f a)) :
    Safe (m >>= f) := by
  intro inp off e h
  rcases Dec.bind_eq_error.mp h with h | ⟨a, o, h1, h2⟩
  · exact hm _ _ _ h
  · exact hf a _ _ _ h2

theorem Safe.pure (a : α) : Safe (pure a) := by intro inp off e h; cases h
theorem Safe.throwValue : Safe (Dec.throw .value : Dec α) := by
  intro inp off e h; cases h; exact Or.inl rfl
theorem Safe.throwRuntime : Safe (Dec.throw .runtime : Dec α) := by
  intro inp off e h; cases h; exact Or.inr rfl
theorem Safe.getOffset : Safe getOffset := by intro inp off e h; cases h
theorem Safe.seek (o : Nat) : Safe (seek o) := by intro inp off e h; cases h
theorem Safe.advance (o : Nat) : Safe (advance o) := by intro inp off e h; cases h
theorem Safe.inputLen : Safe inputLen := by intro inp off e h; cases h
theorem Safe.getSlice (a b : Nat) : Safe (getSlice a b) := by intro inp off e h; cases h
theorem Safe.ite {c : Prop} [Decidable c] {m n : Dec α} (hm : Safe m) (hn : Safe n) :
    Safe (if c then m else n) := by split <;> assumption

/-- Only errors among ValueError, RuntimeError and IndexError. -/
def SafeIdx (m : Dec α) : Prop :=
  ∀ inp off e, m.run inp off = .error e → e = .value ∨ e = .runtime ∨ e = .index

theorem SafeIdx.bind {m : Dec α} {f : α → Dec β} (hm : SafeIdx m) (hf : ∀ a, SafeIdx (f a)) :
    SafeIdx (m >>= f) := by
  intro inp off e h
  rcases Dec.bind_eq_error.mp h with h | ⟨a, o, h1, h2⟩
  · exact hm _ _ _ h
  · exact hf a _ _ _ h2
theorem Safe.idx {m : Dec α} (h : Safe m) : SafeIdx m := by
  intro inp off e he
  rcases h _ _ _ he with h | h
  · exact Or.inl h
  · exact Or.inr (Or.inl h)
theorem SafeIdx.peekByte (i : Nat) : SafeIdx (peekByte i) := by
  intro inp off e h
  unfold PyNDN.peekByte at h
  simp only at h
  split at h
  · cases h
  · cases h; exact Or.inr (Or.inr rfl)
theorem SafeIdx.ite {c : Prop} [Decidable c] {m n : Dec α} (hm : SafeIdx m) (hn : SafeIdx n) :
    SafeIdx (if c then m else n) := by split <;> assumption

theorem Safe.catchIndex {m : Dec α} (h : SafeIdx m) : Safe (catchIndex m) := by
  intro inp off e he
  unfold PyNDN.catchIndex at he
  simp only at he
  split at he
  · cases he
  · next e' h' =>
    have := h _ _ _ h'
    cases he
    split
    · exact Or.inl rfl
    · next hne =>
      rcases this with h1 | h1 | h1
      · exact Or.inl h1
      · exact Or.inr h1
      · exact absurd h1 hne

theorem Safe.readVarNumber : Safe readVarNumber := by
  unfold PyNDN.readVarNumber
  apply Safe.catchIndex
  refine SafeIdx.bind (SafeIdx.peekByte _) fun _ => SafeIdx.bind (Safe.advance _).idx fun _ =>
    SafeIdx.ite (Safe.pure _).idx ?_
  unfold readExtendedVarNumber
  refine SafeIdx.ite ?_ (SafeIdx.ite ?_ ?_) <;>
    repeat' first
      | exact (Safe.pure _).idx
      | refine SafeIdx.bind (SafeIdx.peekByte _) fun _ => ?_
      | refine SafeIdx.bind (Safe.advance _).idx fun _ => ?_

theorem Safe.readTypeAndLength (t : Nat) : Safe (readTypeAndLength t) := by
  unfold PyNDN.readTypeAndLength
  exact Safe.readVarNumber.bind fun _ => Safe.ite Safe.throwValue <| Safe.readVarNumber.bind fun _ =>
    Safe.getOffset.bind fun _ => Safe.inputLen.bind fun _ => Safe.ite Safe.throwValue (Safe.pure _)

theorem Safe.readNestedTlvsStart (t : Nat) : Safe (readNestedTlvsStart t) := by
  unfold PyNDN.readNestedTlvsStart
  exact (Safe.readTypeAndLength t).bind fun _ => Safe.getOffset.bind fun _ => Safe.pure _

theorem Safe.peekType (t e : Nat) : Safe (peekType t e) := by
  unfold PyNDN.peekType
  exact Safe.getOffset.bind fun _ => Safe.ite (Safe.pure _) <| Safe.readVarNumber.bind fun _ =>
    (Safe.seek _).bind fun _ => Safe.pure _

theorem Safe.readNonNegativeInteger (l : Nat) : Safe (readNonNegativeInteger l) := by
  unfold PyNDN.readNonNegativeInteger
  apply Safe.catchIndex
  refine SafeIdx.ite ?_ (SafeIdx.ite ?_ (SafeIdx.ite ?_ (SafeIdx.ite ?_ ?_))) <;>
    repeat' first
      | exact (Safe.pure _).idx
      | exact Safe.throwValue.idx
      | refine SafeIdx.bind (SafeIdx.peekByte _) fun _ => ?_
      | refine SafeIdx.bind (Safe.advance _).idx fun _ => ?_

theorem Safe.readNonNegativeIntegerTlv (t : Nat) : Safe (readNonNegativeIntegerTlv t) :=
  (Safe.readTypeAndLength t).bind fun _ => Safe.readNonNegativeInteger _

theorem Safe.readOptionalNonNegativeIntegerTlv (t e : Nat) :
    Safe (readOptionalNonNegativeIntegerTlv t e) :=
  (Safe.peekType t e).bind fun _ => Safe.ite
    ((Safe.readNonNegativeIntegerTlv t).bind fun _ => Safe.pure _) (Safe.pure _)

theorem Safe.readBlobTlv (t : Nat) : Safe (readBlobTlv t) :=
  (Safe.readTypeAndLength t).bind fun _ => Safe.getOffset.bind fun _ =>
    (Safe.getSlice _ _).bind fun _ => (Safe.advance _).bind fun _ => Safe.pure _

theorem Safe.readOptionalBlobTlv (t e : Nat) : Safe (readOptionalBlobTlv t e) :=
  (Safe.peekType t e).bind fun _ => Safe.ite
    ((Safe.readBlobTlv t).bind fun _ => Safe.pure _) (Safe.pure _)

theorem Safe.readBooleanTlv (t e : Nat) : Safe (readBooleanTlv t e) :=
  (Safe.peekType t e).bind fun _ => Safe.ite
    ((Safe.readTypeAndLength t).bind fun _ => (Safe.advance _).bind fun _ => Safe.pure _)
    (Safe.pure _)

theorem Safe.skipTlv (t : Nat) : Safe (skipTlv t) :=
  (Safe.readTypeAndLength t).bind fun _ => Safe.advance _

theorem Safe.skipOptionalTlv (t e : Nat) : Safe (skipOptionalTlv t e) :=
  (Safe.peekType t e).bind fun _ => Safe.ite (Safe.skipTlv t) (Safe.pure _)

theorem Safe.lift {r : Except Err α} (h : ∀ e, r = .error e → e = .value ∨ e = .runtime) :
    Safe (Dec.lift r) := by
  intro inp off e he
  unfold Dec.lift at he
  simp only at he
  cases hr : r with
  | ok a => rw [hr] at he; cases he
  | error x => rw [hr] at he; cases he; exact h _ hr

/-! ### Progress -/

theorem Progress.readVarNumber : Progress readVarNumber := by
  intro inp off a off' h
  obtain ⟨bs, hf, _, rfl⟩ := readVarNumber_inv h
  have := varNumForm_pos hf; omega

theorem Forward.pure (a : α) : Forward (pure a) := by
  intro inp off x off' h; cases h; exact Nat.le_refl _
theorem Forward.throw (e : Err) : Forward (Dec.throw e : Dec α) := by
  intro inp off x off' h; cases h
theorem Forward.getOffset : Forward getOffset := by
  intro inp off x off' h; cases h; exact Nat.le_refl _
theorem Forward.inputLen : Forward inputLen := by
  intro inp off x off' h; cases h; exact Nat.le_refl _
theorem Forward.getSlice (a b : Nat) : Forward (getSlice a b) := by
  intro inp off x off' h; cases h; exact Nat.le_refl _
theorem Forward.advance (n : Nat) : Forward (advance n) := by
  intro inp off x off' h; cases h; omega
theorem Forward.bind {m : Dec α} {f : α → Dec β} (hm : Forward m) (hf : ∀ a, Forward (f a)) :
    Forward (m >>= f) := by
  intro inp off b off' h
  obtain ⟨a, o, h1, h2⟩ := Dec.bind_eq_ok.mp h
  have := hm _ _ _ _ h1
  have := hf a _ _ _ _ h2
  omega
theorem Forward.ite {c : Prop} [Decidable c] {m n : Dec α} (hm : Forward m) (hn : Forward n) :
    Forward (if c then m else n) := by split <;> assumption
theorem Forward.peekByte (i : Nat) : Forward (peekByte i) := by
  intro inp off x off' h
  obtain ⟨_, _, _, rfl⟩ := peekByte_eq_ok.mp h
  exact Nat.le_refl _
theorem Progress.forward {m : Dec α} (h : Progress m) : Forward m :=
  fun inp off a off' h' => Nat.le_of_lt (h inp off a off' h')
theorem Forward.catchIndex {m : Dec α} (h : Forward m) : Forward (catchIndex m) := by
  intro inp off a off' h'
  exact h _ _ _ _ (catchIndex_eq_ok.mp h')
theorem Forward.lift (r : Except Err α) : Forward (Dec.lift r) := by
  intro inp off a off' h
  unfold Dec.lift at h
  simp only at h
  split at h <;> cases h
  exact Nat.le_refl _

theorem Progress.bind {m : Dec α} {f : α → Dec β} (hm : Progress m) (hf : ∀ a, Forward (f a)) :
    Progress (m >>= f) := by
  intro inp off b off' h
  obtain ⟨a, o, h1, h2⟩ := Dec.bind_eq_ok.mp h
  have := hm _ _ _ _ h1
  have := hf a _ _ _ _ h2
  omega

theorem Progress.bind' {m : Dec α} {f : α → Dec β} (hm : Forward m) (hf : ∀ a, Progress (f a)) :
    Progress (m >>= f) := by
  intro inp off b off' h
  obtain ⟨a, o, h1, h2⟩ := Dec.bind_eq_ok.mp h
  have := hm _ _ _ _ h1
  have := hf a _ _ _ _ h2
  omega

theorem Progress.readTypeAndLength (t : Nat) : Progress (readTypeAndLength t) :=
  Progress.readVarNumber.bind fun _ => Forward.ite (Forward.throw _) <|
    Progress.readVarNumber.forward.bind fun _ => Forward.getOffset.bind fun _ =>
      Forward.inputLen.bind fun _ => Forward.ite (Forward.throw _) (Forward.pure _)

theorem Progress.readNestedTlvsStart (t : Nat) : Progress (readNestedTlvsStart t) :=
  (Progress.readTypeAndLength t).bind fun _ => Forward.getOffset.bind fun _ => Forward.pure _

theorem Progress.readBlobTlv (t : Nat) : Progress (readBlobTlv t) :=
  (Progress.readTypeAndLength t).bind fun _ => Forward.getOffset.bind fun _ =>
    (Forward.getSlice _ _).bind fun _ => (Forward.advance _).bind fun _ => Forward.pure _

theorem Forward.readNonNegativeInteger (l : Nat) : Forward (readNonNegativeInteger l) := by
  unfold PyNDN.readNonNegativeInteger
  apply Forward.catchIndex
  refine Forward.ite ?_ (Forward.ite ?_ (Forward.ite ?_ (Forward.ite ?_ ?_))) <;>
    repeat' first
      | exact Forward.pure _
      | exact Forward.throw _
      | refine Forward.bind (Forward.peekByte _) fun _ => ?_
      | refine Forward.bind (Forward.advance _) fun _ => ?_

theorem Progress.readNonNegativeIntegerTlv (t : Nat) : Progress (readNonNegativeIntegerTlv t) :=
  (Progress.readTypeAndLength t).bind fun _ => Forward.readNonNegativeInteger _

theorem Progress.skipTlv (t : Nat) : Progress (skipTlv t) :=
  (Progress.readTypeAndLength t).bind fun _ => Forward.advance _

theorem peekType_offset {t e : Nat} {inp : Bytes} {off off' : Nat} {b : Bool}
    (h : (peekType t e).run inp off = .ok (b, off')) : off' = off := by
  unfold peekType at h
  rw [Dec.bind_ok (getOffset_run _ _)] at h
  split at h
  · cases h; rfl
  · obtain ⟨_, _, _, h⟩ := Dec.bind_eq_ok.mp h
    rw [Dec.bind_ok (seek_run _ _ _)] at h
    cases h; rfl

theorem Forward.peekType (t e : Nat) : Forward (peekType t e) := by
  intro inp off b off' h
  exact Nat.le_of_eq (peekType_offset h).symm

theorem Progress.skipUnrecognized (sc : Bool) : Progress (skipUnrecognized sc) := by
  unfold PyNDN.skipUnrecognized
  refine Progress.readVarNumber.bind fun _ => Forward.ite (Forward.throw _) <|
    Progress.readVarNumber.forward.bind fun _ => (Forward.advance _).bind fun _ =>
      Forward.getOffset.bind fun _ => Forward.inputLen.bind fun _ =>
        Forward.ite (Forward.throw _) (Forward.pure _)

theorem Safe.skipUnrecognized (sc : Bool) : Safe (skipUnrecognized sc) := by
  unfold PyNDN.skipUnrecognized
  exact Safe.readVarNumber.bind fun _ => Safe.ite Safe.throwValue <|
    Safe.readVarNumber.bind fun _ => (Safe.advance _).bind fun _ =>
      Safe.getOffset.bind fun _ => Safe.inputLen.bind fun _ =>
        Safe.ite Safe.throwValue (Safe.pure _)

theorem finishLoop_safe (e : Nat) (sc : Bool) (fuel : Nat) : ∀ inp off, e ≤ off + fuel →
    ∀ x, (finishLoop e sc fuel).run inp off = .error x → x = .value ∨ x = .runtime := by
  induction fuel with
  | zero =>
    intro inp off hf x h
    unfold finishLoop at h
    rw [Dec.bind_ok (getOffset_run _ _), if_neg (by omega)] at h
    cases h
  | succ fuel ih =>
    intro inp off hf x h
    unfold finishLoop at h
    rw [Dec.bind_ok (getOffset_run _ _)] at h
    split at h
    · rcases Dec.bind_eq_error.mp h with h | ⟨a, o, h1, h2⟩
      · exact Safe.skipUnrecognized sc _ _ _ h
      · have := Progress.skipUnrecognized sc _ _ _ _ h1
        exact ih _ _ (by omega) _ h2
    · cases h

theorem Safe.finishNestedTlvs (e : Nat) (sc : Bool) : Safe (finishNestedTlvs e sc) := by
  intro inp off x h
  unfold PyNDN.finishNestedTlvs at h
  rw [Dec.bind_ok (getOffset_run _ _)] at h
  split at h
  · cases h
  · rcases Dec.bind_eq_error.mp h with h | ⟨a, o, h1, h2⟩
    · exact finishLoop_safe _ _ _ _ _ (by omega) _ h
    · rw [Dec.bind_ok (getOffset_run _ _)] at h2
      split at h2
      · cases h2; exact Or.inl rfl
      · cases h2

theorem Forward.finishNestedTlvs (e : Nat) (sc : Bool) : Forward (finishNestedTlvs e sc) := by
  intro inp off x off' h
  obtain ⟨rfl, bs, _, _, h, _⟩ := finishNestedTlvs_inv h
  omega

/-! ### Loops -/

theorem loopWhile_safe {σ : Type} {e : Nat} {body : σ → Dec σ} (hs : ∀ s, Safe (body s))
    (hp : ∀ s, Progress (body s)) (fuel : Nat) : ∀ s inp off, e ≤ off + fuel →
    ∀ x, (loopWhile e body fuel s).run inp off = .error x → x = .value ∨ x = .runtime := by
  induction fuel with
  | zero =>
    intro s inp off hf x h
    unfold loopWhile at h
    rw [Dec.bind_ok (getOffset_run _ _), if_neg (by omega)] at h
    cases h
  | succ fuel ih =>
    intro s inp off hf x h
    unfold loopWhile at h
    rw [Dec.bind_ok (getOffset_run _ _)] at h
    split at h
    · rcases Dec.bind_eq_error.mp h with h | ⟨a, o, h1, h2⟩
      · exact hs s _ _ _ h
      · have := hp s _ _ _ _ h1
        exact ih _ _ _ (by omega) _ h2
    · cases h

theorem Safe.whileBefore {σ : Type} {e : Nat} {body : σ → Dec σ} (hs : ∀ s, Safe (body s))
    (hp : ∀ s, Progress (body s)) (s : σ) : Safe (whileBefore e body s) := by
  intro inp off x h
  unfold PyNDN.whileBefore at h
  rw [Dec.bind_ok (getOffset_run _ _)] at h
  exact loopWhile_safe hs hp _ _ _ _ (by omega) _ h

theorem loopWhile_forward {σ : Type} {e : Nat} {body : σ → Dec σ}
    (hp : ∀ s, Forward (body s)) (fuel : Nat) : ∀ s, Forward (loopWhile e body fuel s) := by
  induction fuel with
  | zero =>
    intro s
    unfold loopWhile
    exact Forward.getOffset.bind fun _ => Forward.ite (Forward.throw _) (Forward.pure _)
  | succ fuel ih =>
    intro s
    unfold loopWhile
    exact Forward.getOffset.bind fun _ => Forward.ite ((hp s).bind fun _ => ih _) (Forward.pure _)

theorem Forward.whileBefore {σ : Type} {e : Nat} {body : σ → Dec σ}
    (hp : ∀ s, Forward (body s)) (s : σ) : Forward (whileBefore e body s) :=
  Forward.getOffset.bind fun _ => loopWhile_forward hp _ _

end PyNDN
