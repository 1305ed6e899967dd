import Verif.Lemmas.LpPacket
/-
Helper lemmas for C06: removing bytes that a successful decoding did not consume.  `inp` is the kept
part and `ex` the removed bytes.
-/
namespace PyNDN
open Spec

section
variable (inp ex : Bytes)

/-- The number that starts at `off` reaches past the kept part. -/
def Stuck (off : Nat) : Prop :=
  ∀ n o, readVarNumber.run (inp ++ ex) off = .ok (n, o) → inp.length < o

/-- An action in the scope of a nested TLV that ends at `e`. -/
structure Cut (e : Nat) (m : Dec α) : Prop where
  fwd : ∀ off a off', m.run (inp ++ ex) off = .ok (a, off') → off ≤ off'
  clean : ∀ off a off', m.run (inp ++ ex) off = .ok (a, off') → off' ≤ inp.length →
    m.run inp off = .ok (a, off') ∨ (Stuck inp ex off' ∧ off' < e)
  stuck : ∀ off a off', Stuck inp ex off → off < e → m.run (inp ++ ex) off = .ok (a, off') →
    inp.length < off' ∨ off' = off

/-- An action that reads nothing that it does not consume. -/
structure Cut0 (m : Dec α) : Prop where
  fwd : ∀ off a off', m.run (inp ++ ex) off = .ok (a, off') → off ≤ off'
  clean : ∀ off a off', m.run (inp ++ ex) off = .ok (a, off') → off' ≤ inp.length →
    m.run inp off = .ok (a, off')
  stuck : ∀ off a off', Stuck inp ex off → m.run (inp ++ ex) off = .ok (a, off') →
    inp.length < off' ∨ off' = off

/-- An action that finishes the scope that ends at `e`. -/
structure CutE (e : Nat) (m : Dec α) : Prop where
  ge : ∀ off a off', m.run (inp ++ ex) off = .ok (a, off') → off ≤ off' ∧ e ≤ off'
  clean : ∀ off a off', m.run (inp ++ ex) off = .ok (a, off') → off' ≤ inp.length →
    m.run inp off = .ok (a, off')
  stuck : ∀ off a off', Stuck inp ex off → off < e → m.run (inp ++ ex) off = .ok (a, off') →
    inp.length < off'
end

variable {inp ex : Bytes}

theorem Cut0.to {m : Dec α} (h : Cut0 inp ex m) (e : Nat) : Cut inp ex e m :=
  ⟨h.fwd, fun off a off' h1 h2 => Or.inl (h.clean off a off' h1 h2),
    fun off a off' h1 _ h2 => h.stuck off a off' h1 h2⟩

theorem Cut.bind {e : Nat} {m : Dec α} {f : α → Dec β} (hm : Cut inp ex e m)
    (hf : ∀ a, Cut inp ex e (f a)) : Cut inp ex e (m >>= f) := by
  refine ⟨?_, ?_, ?_⟩
  · intro off x off' h
    obtain ⟨a, o, h1, h2⟩ := Dec.bind_eq_ok.mp h
    exact Nat.le_trans (hm.fwd _ _ _ h1) ((hf a).fwd _ _ _ h2)
  · intro off x off' h hL
    obtain ⟨a, o, h1, h2⟩ := Dec.bind_eq_ok.mp h
    have hf2 := (hf a).fwd _ _ _ h2
    rcases hm.clean _ _ _ h1 (by omega) with c | ⟨c1, c2⟩
    · rcases (hf a).clean _ _ _ h2 hL with d | d
      · exact Or.inl (Dec.bind_eq_ok.mpr ⟨a, o, c, d⟩)
      · exact Or.inr d
    · rcases (hf a).stuck _ _ _ c1 c2 h2 with d | d
      · omega
      · subst d; exact Or.inr ⟨c1, c2⟩
  · intro off x off' hs he h
    obtain ⟨a, o, h1, h2⟩ := Dec.bind_eq_ok.mp h
    rcases hm.stuck _ _ _ hs he h1 with d | d
    · have := (hf a).fwd _ _ _ h2
      exact Or.inl (by omega)
    · subst d; exact (hf a).stuck _ _ _ hs he h2

theorem Cut0.bind {m : Dec α} {f : α → Dec β} (hm : Cut0 inp ex m)
    (hf : ∀ a, Cut0 inp ex (f a)) : Cut0 inp ex (m >>= f) := by
  refine ⟨?_, ?_, ?_⟩
  · intro off x off' h
    obtain ⟨a, o, h1, h2⟩ := Dec.bind_eq_ok.mp h
    exact Nat.le_trans (hm.fwd _ _ _ h1) ((hf a).fwd _ _ _ h2)
  · intro off x off' h hL
    obtain ⟨a, o, h1, h2⟩ := Dec.bind_eq_ok.mp h
    have hf2 := (hf a).fwd _ _ _ h2
    exact Dec.bind_eq_ok.mpr ⟨a, o, hm.clean _ _ _ h1 (by omega), (hf a).clean _ _ _ h2 hL⟩
  · intro off x off' hs h
    obtain ⟨a, o, h1, h2⟩ := Dec.bind_eq_ok.mp h
    rcases hm.stuck _ _ _ hs h1 with d | d
    · have := (hf a).fwd _ _ _ h2
      exact Or.inl (by omega)
    · subst d; exact (hf a).stuck _ _ _ hs h2

theorem Cut.bindE {e : Nat} {m : Dec α} {f : α → Dec β} (hm : Cut inp ex e m)
    (hf : ∀ a, CutE inp ex e (f a)) : CutE inp ex e (m >>= f) := by
  refine ⟨?_, ?_, ?_⟩
  · intro off x off' h
    obtain ⟨a, o, h1, h2⟩ := Dec.bind_eq_ok.mp h
    have := hm.fwd _ _ _ h1
    have := (hf a).ge _ _ _ h2
    omega
  · intro off x off' h hL
    obtain ⟨a, o, h1, h2⟩ := Dec.bind_eq_ok.mp h
    have hf2 := (hf a).ge _ _ _ h2
    rcases hm.clean _ _ _ h1 (by omega) with c | ⟨c1, c2⟩
    · exact Dec.bind_eq_ok.mpr ⟨a, o, c, (hf a).clean _ _ _ h2 hL⟩
    · have := (hf a).stuck _ _ _ c1 c2 h2; omega
  · intro off x off' hs he h
    obtain ⟨a, o, h1, h2⟩ := Dec.bind_eq_ok.mp h
    rcases hm.stuck _ _ _ hs he h1 with d | d
    · have := (hf a).ge _ _ _ h2
      omega
    · subst d; exact (hf a).stuck _ _ _ hs he h2

theorem CutE.bind {e : Nat} {m : Dec α} {f : α → Dec β} (hm : CutE inp ex e m)
    (hf : ∀ a, Cut0 inp ex (f a)) : CutE inp ex e (m >>= f) := by
  refine ⟨?_, ?_, ?_⟩
  · intro off x off' h
    obtain ⟨a, o, h1, h2⟩ := Dec.bind_eq_ok.mp h
    have := hm.ge _ _ _ h1
    have := (hf a).fwd _ _ _ h2
    omega
  · intro off x off' h hL
    obtain ⟨a, o, h1, h2⟩ := Dec.bind_eq_ok.mp h
    have hf2 := (hf a).fwd _ _ _ h2
    exact Dec.bind_eq_ok.mpr ⟨a, o, hm.clean _ _ _ h1 (by omega), (hf a).clean _ _ _ h2 hL⟩
  · intro off x off' hs he h
    obtain ⟨a, o, h1, h2⟩ := Dec.bind_eq_ok.mp h
    have := (hf a).fwd _ _ _ h2
    have := hm.stuck _ _ _ hs he h1
    omega

theorem Cut0.pure (a : α) : Cut0 inp ex (pure a) := by
  refine ⟨?_, ?_, ?_⟩
  · intro off x off' h; rw [Dec.pure_run] at h; cases h; exact Nat.le_refl _
  · intro off x off' h _; rw [Dec.pure_run] at h ⊢; exact h
  · intro off x off' _ h; rw [Dec.pure_run] at h; cases h; exact Or.inr rfl
theorem Cut0.throw (e : Err) : Cut0 inp ex (Dec.throw e : Dec α) := by
  refine ⟨?_, ?_, ?_⟩
  · intro off x off' h; rw [Dec.throw_run] at h; cases h
  · intro off x off' h _; rw [Dec.throw_run] at h; cases h
  · intro off x off' _ h; rw [Dec.throw_run] at h; cases h
theorem CutE.throw (e : Nat) (x : Err) : CutE inp ex e (Dec.throw x : Dec α) := by
  refine ⟨?_, ?_, ?_⟩
  · intro off x off' h; rw [Dec.throw_run] at h; cases h
  · intro off x off' h _; rw [Dec.throw_run] at h; cases h
  · intro off x off' _ _ h; rw [Dec.throw_run] at h; cases h
theorem Cut0.lift (r : Except Err α) : Cut0 inp ex (Dec.lift r) := by
  cases r with
  | ok a => exact Cut0.pure a
  | error e => exact Cut0.throw e
theorem Cut0.getOffset : Cut0 inp ex getOffset := by
  refine ⟨?_, ?_, ?_⟩
  · intro off x off' h; rw [getOffset_run] at h; cases h; exact Nat.le_refl _
  · intro off x off' h _; rw [getOffset_run] at h ⊢; exact h
  · intro off x off' _ h; rw [getOffset_run] at h; cases h; exact Or.inr rfl
theorem Cut0.ite {c : Prop} [Decidable c] {m n : Dec α} (hm : Cut0 inp ex m)
    (hn : Cut0 inp ex n) : Cut0 inp ex (if c then m else n) := by split <;> assumption
theorem Cut.ite {e : Nat} {c : Prop} [Decidable c] {m n : Dec α} (hm : Cut inp ex e m)
    (hn : Cut inp ex e n) : Cut inp ex e (if c then m else n) := by split <;> assumption
theorem CutE.ite {e : Nat} {c : Prop} [Decidable c] {m n : Dec α} (hm : CutE inp ex e m)
    (hn : CutE inp ex e n) : CutE inp ex e (if c then m else n) := by split <;> assumption

theorem readVarNumber_cut {off n o : Nat} (h : readVarNumber.run (inp ++ ex) off = .ok (n, o))
    (ho : o ≤ inp.length) : readVarNumber.run inp off = .ok (n, o) := by
  obtain ⟨bs, h1, h2, h3⟩ := readVarNumber_inv h
  subst h3
  refine readVarNumber_form (rest := (inp.drop (off + bs.length))) h1 ?_
  have h4 := congrArg (List.take (inp.length - off)) h2
  rw [List.drop_append_of_le_length (by omega), List.drop_append_of_le_length (by omega),
    ← List.append_assoc, List.take_append_of_le_length (by simp),
    List.take_append_of_le_length (by simp; omega)] at h4
  rw [List.take_of_length_le (by simp), List.take_of_length_le (by simp; omega)] at h4
  exact h4

theorem readVarNumber_fwd {i : Bytes} {off n o : Nat} (h : readVarNumber.run i off = .ok (n, o)) :
    off < o := by
  obtain ⟨bs, h1, h2, h3⟩ := readVarNumber_inv h
  have := varNumForm_pos h1
  omega

theorem readTypeAndLength_runs {i : Bytes} {t off l o : Nat}
    (h : (readTypeAndLength t).run i off = .ok (l, o)) :
    ∃ o1, readVarNumber.run i off = .ok (t, o1) ∧ readVarNumber.run i o1 = .ok (l, o) ∧
      o + l ≤ i.length := by
  unfold readTypeAndLength at h
  obtain ⟨t', o1, h1, h⟩ := Dec.bind_eq_ok.mp h
  split at h
  · cases h
  · rename_i hne
    obtain ⟨l', o2, h2, h⟩ := Dec.bind_eq_ok.mp h
    rw [Dec.bind_ok (getOffset_run _ _), Dec.bind_ok (inputLen_run _ _)] at h
    split at h
    · cases h
    · rw [Dec.pure_run] at h; cases h
      refine ⟨o1, ?_, h2, by omega⟩
      rw [h1, Decidable.not_not.mp hne]

theorem readTypeAndLength_of {i : Bytes} {t off l o o1 : Nat}
    (h1 : readVarNumber.run i off = .ok (t, o1)) (h2 : readVarNumber.run i o1 = .ok (l, o))
    (h3 : o + l ≤ i.length) : (readTypeAndLength t).run i off = .ok (l, o) := by
  unfold readTypeAndLength
  rw [Dec.bind_ok h1, if_neg (by simp), Dec.bind_ok h2, Dec.bind_ok (getOffset_run _ _),
    Dec.bind_ok (inputLen_run _ _), if_neg (by omega)]
  rfl

theorem readTypeAndLength_cut {t off l o : Nat}
    (h : (readTypeAndLength t).run (inp ++ ex) off = .ok (l, o)) (ho : o + l ≤ inp.length) :
    (readTypeAndLength t).run inp off = .ok (l, o) := by
  obtain ⟨o1, h1, h2, _⟩ := readTypeAndLength_runs h
  have := readVarNumber_fwd h2
  exact readTypeAndLength_of (readVarNumber_cut h1 (by omega)) (readVarNumber_cut h2 (by omega)) ho

theorem readTypeAndLength_stuck {t off l o : Nat} (hs : Stuck inp ex off)
    (h : (readTypeAndLength t).run (inp ++ ex) off = .ok (l, o)) : inp.length < o := by
  obtain ⟨o1, h1, h2, _⟩ := readTypeAndLength_runs h
  have := readVarNumber_fwd h2
  have := hs _ _ h1
  omega

theorem readTypeAndLength_fwd {i : Bytes} {t off l o : Nat}
    (h : (readTypeAndLength t).run i off = .ok (l, o)) : off < o := by
  obtain ⟨o1, h1, h2, _⟩ := readTypeAndLength_runs h
  have := readVarNumber_fwd h2
  have := readVarNumber_fwd h1
  omega

/-- A type and length followed by an action that consumes the value. -/
theorem Cut0.typeAndLength {t : Nat} {f : Nat → Dec α}
    (hf : ∀ l off a off', (f l).run (inp ++ ex) off = .ok (a, off') → off + l ≤ off' ∧
      (off' ≤ inp.length → (f l).run inp off = .ok (a, off'))) :
    Cut0 inp ex (readTypeAndLength t >>= f) := by
  refine ⟨?_, ?_, ?_⟩
  · intro off x off' h
    obtain ⟨l, o, h1, h2⟩ := Dec.bind_eq_ok.mp h
    have := readTypeAndLength_fwd h1
    have := (hf l _ _ _ h2).1
    omega
  · intro off x off' h hL
    obtain ⟨l, o, h1, h2⟩ := Dec.bind_eq_ok.mp h
    obtain ⟨c1, c2⟩ := hf l _ _ _ h2
    exact Dec.bind_eq_ok.mpr ⟨l, o, readTypeAndLength_cut h1 (by omega), c2 hL⟩
  · intro off x off' hs h
    obtain ⟨l, o, h1, h2⟩ := Dec.bind_eq_ok.mp h
    have := readTypeAndLength_stuck hs h1
    have := (hf l _ _ _ h2).1
    exact Or.inl (by omega)

theorem Cut0.nested {t : Nat} {f : Nat → Dec α} (hf : ∀ e, CutE inp ex e (f e)) :
    Cut0 inp ex (readNestedTlvsStart t >>= f) := by
  have key : ∀ i off x off', (readNestedTlvsStart t >>= f).run i off = .ok (x, off') ↔
      ∃ l o, (readTypeAndLength t).run i off = .ok (l, o) ∧ (f (l + o)).run i o = .ok (x, off') := by
    intro i off x off'
    rw [Dec.bind_eq_ok]
    unfold readNestedTlvsStart
    constructor
    · rintro ⟨e, o, h0, h2⟩
      obtain ⟨l, o1, h1, h3⟩ := Dec.bind_eq_ok.mp h0
      rw [Dec.bind_ok (getOffset_run _ _), Dec.pure_run] at h3
      cases h3
      exact ⟨l, o, h1, h2⟩
    · rintro ⟨l, o, h1, h2⟩
      refine ⟨l + o, o, ?_, h2⟩
      rw [Dec.bind_ok h1, Dec.bind_ok (getOffset_run _ _)]; rfl
  refine ⟨?_, ?_, ?_⟩
  · intro off x off' h
    obtain ⟨l, o, h1, h2⟩ := (key _ _ _ _).mp h
    have := readTypeAndLength_fwd h1
    have := (hf _).ge _ _ _ h2
    omega
  · intro off x off' h hL
    obtain ⟨l, o, h1, h2⟩ := (key _ _ _ _).mp h
    have := (hf _).ge _ _ _ h2
    exact (key _ _ _ _).mpr ⟨l, o, readTypeAndLength_cut h1 (by omega), (hf _).clean _ _ _ h2 hL⟩
  · intro off x off' hs h
    obtain ⟨l, o, h1, h2⟩ := (key _ _ _ _).mp h
    have := readTypeAndLength_stuck hs h1
    have := (hf _).ge _ _ _ h2
    exact Or.inl (by omega)

theorem append_drop_cut {bs : Bytes} {off : Nat} (h : (inp ++ ex).drop off = bs ++ (inp ++ ex).drop (off + bs.length))
    (ho : off + bs.length ≤ inp.length) : inp.drop off = bs ++ inp.drop (off + bs.length) := by
  have h4 := congrArg (List.take (inp.length - off)) h
  rw [List.drop_append_of_le_length (by omega), List.drop_append_of_le_length (by omega),
    ← List.append_assoc, List.take_append_of_le_length (by simp),
    List.take_append_of_le_length (by simp; omega)] at h4
  rw [List.take_of_length_le (by simp), List.take_of_length_le (by simp; omega)] at h4
  exact h4

theorem CutE.finishNestedTlvs (e : Nat) (sc : Bool) : CutE inp ex e (finishNestedTlvs e sc) := by
  refine ⟨?_, ?_, ?_⟩
  · intro off x off' h
    obtain ⟨rfl, bs, _, _, h3, _⟩ := finishNestedTlvs_inv h
    omega
  · intro off x off' h hL
    obtain ⟨rfl, bs, h1, h2, rfl, _⟩ := finishNestedTlvs_inv h
    exact finishNestedTlvs_elements h1 (append_drop_cut h2 hL)
  · intro off x off' hs he h
    obtain ⟨rfl, bs, h1, h2, h3, _⟩ := finishNestedTlvs_inv h
    cases h1 with
    | nil => simp at h3; omega
    | @cons t v b rest hel _ _ =>
      obtain ⟨tb, lb, ht, hl, rfl⟩ := hel
      have hr := readVarNumber_form (inp := inp ++ ex) (off := off) ht
        (rest := lb ++ (v ++ (rest ++ (inp ++ ex).drop off'))) (by rw [h2]; simp)
      have := hs _ _ hr
      simp only [List.length_append] at h3
      omega

theorem Cut.peekType (t e : Nat) : Cut inp ex e (peekType t e) := by
  have key : ∀ i off, (PyNDN.peekType t e).run i off =
      if off ≥ e then .ok (false, off) else
        match readVarNumber.run i off with
        | .ok (n, _) => .ok (n == t, off)
        | .error x => .error x := by
    intro i off
    unfold PyNDN.peekType
    rw [Dec.bind_ok (getOffset_run _ _)]
    split
    · rfl
    · rw [Dec.bind_def]
      cases readVarNumber.run i off with
      | error x => rfl
      | ok r => rfl
  have koff : ∀ i off x off', (PyNDN.peekType t e).run i off = .ok (x, off') → off' = off := by
    intro i off x off' h
    rw [key] at h
    split at h
    · cases h; rfl
    · split at h
      · cases h; rfl
      · cases h
  refine ⟨?_, ?_, ?_⟩
  · intro off x off' h; have := koff _ _ _ _ h; omega
  · intro off x off' h hL
    have hk := koff _ _ _ _ h
    subst hk
    rw [key] at h ⊢
    split
    · rename_i hge; rw [if_pos hge] at h; exact Or.inl h
    · rename_i hge
      rw [if_neg hge] at h
      cases hr : readVarNumber.run (inp ++ ex) off' with
      | error x => rw [hr] at h; cases h
      | ok r =>
        obtain ⟨n, o⟩ := r
        rw [hr] at h
        by_cases ho : o ≤ inp.length
        · rw [readVarNumber_cut hr ho]; exact Or.inl h
        · refine Or.inr ⟨?_, by omega⟩
          intro n' o' h'
          rw [hr] at h'; cases h'; omega
  · intro off x off' _ _ h; exact Or.inr (koff _ _ _ _ h)

theorem Cut.optionally (t e : Nat) {m : Dec α} (d : α) (h : Cut0 inp ex m) :
    Cut inp ex e (optionally t e m d) :=
  (Cut.peekType t e).bind fun _ => Cut.ite (h.to e) ((Cut0.pure _).to e)

theorem readNonNegativeInteger_fwd {i : Bytes} {l off a off' : Nat}
    (h : (readNonNegativeInteger l).run i off = .ok (a, off')) : off' = off + l := by
  unfold readNonNegativeInteger at h
  rw [catchIndex_eq_ok] at h
  repeat' split at h
  all_goals
    simp only [Dec.bind_eq_ok, advance_run, Dec.pure_run, peekByte_eq_ok, Except.ok.injEq,
      Prod.mk.injEq, Dec.throw_run] at h
    try grind

theorem readNonNegativeInteger_cut {l off a off' : Nat}
    (h : (readNonNegativeInteger l).run (inp ++ ex) off = .ok (a, off')) (hL : off + l ≤ inp.length) :
    (readNonNegativeInteger l).run inp off = .ok (a, off') := by
  have hp : ∀ i, i < l → (inp ++ ex)[off + i]? = inp[off + i]? := by
    intro i hi
    rw [List.getElem?_append_left (by omega)]
  unfold readNonNegativeInteger at h ⊢
  rw [catchIndex_eq_ok] at h ⊢
  split
  · rename_i c; subst c
    simp only [if_pos, Dec.bind_eq_ok, advance_run, Dec.pure_run, peekByte_eq_ok, Nat.add_zero] at h ⊢
    have h0 := hp 0 (by omega)
    simp only [Nat.add_zero] at h0
    simp only [h0] at h
    exact h
  rename_i c1; rw [if_neg c1] at h
  split
  · rename_i c; subst c
    simp only [if_pos, Dec.bind_eq_ok, advance_run, Dec.pure_run, peekByte_eq_ok] at h ⊢
    obtain ⟨a0, o0, ⟨b0, e0, n0, rfl⟩, a1, o1, ⟨b1, e1, n1, rfl⟩, h⟩ := h
    rw [hp 0 (by omega)] at e0; rw [hp 1 (by omega)] at e1
    exact ⟨a0, _, ⟨b0, e0, n0, rfl⟩, a1, _, ⟨b1, e1, n1, rfl⟩, h⟩
  rename_i c2; rw [if_neg c2] at h
  split
  · rename_i c; subst c
    simp only [if_pos, Dec.bind_eq_ok, advance_run, Dec.pure_run, peekByte_eq_ok] at h ⊢
    obtain ⟨a0, o0, ⟨b0, e0, n0, rfl⟩, a1, o1, ⟨b1, e1, n1, rfl⟩, a2, o2, ⟨b2, e2, n2, rfl⟩,
      a3, o3, ⟨b3, e3, n3, rfl⟩, h⟩ := h
    rw [hp 0 (by omega)] at e0; rw [hp 1 (by omega)] at e1
    rw [hp 2 (by omega)] at e2; rw [hp 3 (by omega)] at e3
    exact ⟨a0, _, ⟨b0, e0, n0, rfl⟩, a1, _, ⟨b1, e1, n1, rfl⟩, a2, _, ⟨b2, e2, n2, rfl⟩,
      a3, _, ⟨b3, e3, n3, rfl⟩, h⟩
  rename_i c3; rw [if_neg c3] at h
  split
  · rename_i c; subst c
    simp only [if_pos, Dec.bind_eq_ok, advance_run, Dec.pure_run, peekByte_eq_ok] at h ⊢
    obtain ⟨a0, o0, ⟨b0, e0, n0, rfl⟩, a1, o1, ⟨b1, e1, n1, rfl⟩, a2, o2, ⟨b2, e2, n2, rfl⟩,
      a3, o3, ⟨b3, e3, n3, rfl⟩, a4, o4, ⟨b4, e4, n4, rfl⟩, a5, o5, ⟨b5, e5, n5, rfl⟩,
      a6, o6, ⟨b6, e6, n6, rfl⟩, a7, o7, ⟨b7, e7, n7, rfl⟩, h⟩ := h
    rw [hp 0 (by omega)] at e0; rw [hp 1 (by omega)] at e1
    rw [hp 2 (by omega)] at e2; rw [hp 3 (by omega)] at e3
    rw [hp 4 (by omega)] at e4; rw [hp 5 (by omega)] at e5
    rw [hp 6 (by omega)] at e6; rw [hp 7 (by omega)] at e7
    exact ⟨a0, _, ⟨b0, e0, n0, rfl⟩, a1, _, ⟨b1, e1, n1, rfl⟩, a2, _, ⟨b2, e2, n2, rfl⟩,
      a3, _, ⟨b3, e3, n3, rfl⟩, a4, _, ⟨b4, e4, n4, rfl⟩, a5, _, ⟨b5, e5, n5, rfl⟩,
      a6, _, ⟨b6, e6, n6, rfl⟩, a7, _, ⟨b7, e7, n7, rfl⟩, h⟩
  rename_i c4; rw [if_neg c4, Dec.throw_run] at h; cases h

theorem Cut0.readNonNegativeIntegerTlv (t : Nat) : Cut0 inp ex (readNonNegativeIntegerTlv t) :=
  Cut0.typeAndLength fun l off a off' h => by
    have h1 := readNonNegativeInteger_fwd h
    subst h1
    exact ⟨Nat.le_refl _, fun hL => readNonNegativeInteger_cut h hL⟩

theorem Cut0.readBlobTlv (t : Nat) : Cut0 inp ex (readBlobTlv t) :=
  Cut0.typeAndLength fun l off a off' h => by
    rw [Dec.bind_ok (getOffset_run _ _), Dec.bind_ok (getSlice_run _ _ _ _),
      Dec.bind_ok (advance_run _ _ _), Dec.pure_run] at h
    cases h
    refine ⟨Nat.le_refl _, fun hL => ?_⟩
    rw [Dec.bind_ok (getOffset_run _ _), Dec.bind_ok (getSlice_run _ _ _ _),
      Dec.bind_ok (advance_run _ _ _), Dec.pure_run, List.take_append_of_le_length hL]

theorem Cut.readOptionalNonNegativeIntegerTlv (t e : Nat) :
    Cut inp ex e (readOptionalNonNegativeIntegerTlv t e) :=
  (Cut.peekType t e).bind fun _ => Cut.ite
    (((Cut0.readNonNegativeIntegerTlv t).bind fun _ => Cut0.pure _).to e) ((Cut0.pure _).to e)

theorem Cut.readOptionalNonNegativeIntegerTlvAsFloat (t e : Nat) :
    Cut inp ex e (readOptionalNonNegativeIntegerTlvAsFloat t e) :=
  (Cut.readOptionalNonNegativeIntegerTlv t e).bind fun _ => (Cut0.pure _).to e

theorem Cut.readOptionalBlobTlv (t e : Nat) : Cut inp ex e (readOptionalBlobTlv t e) :=
  (Cut.peekType t e).bind fun _ => Cut.ite
    (((Cut0.readBlobTlv t).bind fun _ => Cut0.pure _).to e) ((Cut0.pure _).to e)

theorem Cut.readBooleanTlv (t e : Nat) : Cut inp ex e (readBooleanTlv t e) :=
  (Cut.peekType t e).bind fun _ => Cut.ite
    (Cut0.to (Cut0.typeAndLength fun l off a off' h => by
      rw [Dec.bind_ok (advance_run _ _ _), Dec.pure_run] at h
      cases h
      exact ⟨Nat.le_refl _, fun _ => rfl⟩) e) ((Cut0.pure _).to e)

theorem loopWhile_cut {σ : Type} {e : Nat} {body : σ → Dec σ} (hs : ∀ s, Cut inp ex e (body s))
    (fuel : Nat) : ∀ s, Cut inp ex e (loopWhile e body fuel s) := by
  induction fuel with
  | zero =>
    intro s
    unfold loopWhile
    exact (Cut0.getOffset.to e).bind fun _ => Cut.ite ((Cut0.throw _).to e) ((Cut0.pure _).to e)
  | succ fuel ih =>
    intro s
    unfold loopWhile
    exact (Cut0.getOffset.to e).bind fun _ => Cut.ite ((hs s).bind fun _ => ih _) ((Cut0.pure _).to e)

theorem Cut.whileBefore {σ : Type} {e : Nat} {body : σ → Dec σ} (hs : ∀ s, Cut inp ex e (body s))
    (s : σ) : Cut inp ex e (whileBefore e body s) :=
  (Cut0.getOffset.to e).bind fun _ => loopWhile_cut hs _ _

theorem Cut0.decodeNameComponent : Cut0 inp ex decodeNameComponent := by
  have key : ∀ i off x off', PyNDN.decodeNameComponent.run i off = .ok (x, off') ↔
      ∃ t o, readVarNumber.run i off = .ok (t, o) ∧
        (PyNDN.readBlobTlv t >>= fun v => Dec.lift (componentOf t v)).run i off = .ok (x, off') := by
    intro i off x off'
    unfold PyNDN.decodeNameComponent
    rw [Dec.bind_ok (getOffset_run _ _), Dec.bind_eq_ok]
    constructor
    · rintro ⟨t, o, h1, h2⟩
      rw [Dec.bind_ok (seek_run _ _ _)] at h2
      exact ⟨t, o, h1, h2⟩
    · rintro ⟨t, o, h1, h2⟩
      refine ⟨t, o, h1, ?_⟩
      rw [Dec.bind_ok (seek_run _ _ _)]; exact h2
  have hc : ∀ t, Cut0 inp ex (PyNDN.readBlobTlv t >>= fun v => Dec.lift (componentOf t v)) :=
    fun t => (Cut0.readBlobTlv t).bind fun _ => Cut0.lift _
  refine ⟨?_, ?_, ?_⟩
  · intro off x off' h
    obtain ⟨t, o, h1, h2⟩ := (key _ _ _ _).mp h
    exact (hc t).fwd _ _ _ h2
  · intro off x off' h hL
    obtain ⟨t, o, h1, h2⟩ := (key _ _ _ _).mp h
    have h3 := (hc t).clean _ _ _ h2 hL
    obtain ⟨v, o', h4, h5⟩ := Dec.bind_eq_ok.mp h3
    unfold PyNDN.readBlobTlv at h4
    obtain ⟨l, o'', h4, _⟩ := Dec.bind_eq_ok.mp h4
    obtain ⟨o3, h6, _, _⟩ := readTypeAndLength_runs h4
    exact (key _ _ _ _).mpr ⟨t, o3, h6, h3⟩
  · intro off x off' hs h
    obtain ⟨t, o, h1, h2⟩ := (key _ _ _ _).mp h
    exact (hc t).stuck _ _ _ hs h2

theorem Cut0.decodeNameFrom : Cut0 inp ex decodeNameFrom :=
  Cut0.nested fun e => Cut.bindE (Cut0.getOffset.to e) fun _ =>
    Cut.bindE (Cut.whileBefore (fun _ => (Cut0.getOffset.bind fun _ =>
      Cut0.decodeNameComponent.bind fun _ => Cut0.pure _).to e) _) fun _ =>
    (CutE.finishNestedTlvs e _).bind fun _ => Cut0.pure _

theorem CutE.ifEnd {e : Nat} {x : α} {n : Dec α} (hn : CutE inp ex e n) :
    CutE inp ex e (getOffset >>= fun off => if off = e then pure x else n) := by
  refine ⟨?_, ?_, ?_⟩
  · intro off a off' h
    rw [Dec.bind_ok (getOffset_run _ _)] at h
    split at h
    · rw [Dec.pure_run] at h; cases h; omega
    · exact hn.ge _ _ _ h
  · intro off a off' h hL
    rw [Dec.bind_ok (getOffset_run _ _)] at h ⊢
    split
    · rename_i he; rw [if_pos he] at h; rw [Dec.pure_run] at h ⊢; exact h
    · rename_i he; rw [if_neg he] at h; exact hn.clean _ _ _ h hL
  · intro off a off' hs he h
    rw [Dec.bind_ok (getOffset_run _ _), if_neg (by omega)] at h
    exact hn.stuck _ _ _ hs he h

theorem Cut0.decodeKeyLocator (t : Nat) : Cut0 inp ex (decodeKeyLocator t) :=
  Cut0.nested fun e => CutE.ifEnd <|
    (Cut.peekType _ e).bindE fun _ => CutE.ite
      (Cut.bindE (Cut0.decodeNameFrom.to e) fun _ =>
        (CutE.finishNestedTlvs e _).bind fun _ => Cut0.pure _) <|
    (Cut.peekType _ e).bindE fun _ => CutE.ite
      (Cut.bindE ((Cut0.readBlobTlv _).to e) fun _ =>
        (CutE.finishNestedTlvs e _).bind fun _ => Cut0.pure _) <|
    CutE.throw _ _

theorem Cut.decodeExcludeEntry (e : Nat) (s : Exclude) : Cut inp ex e (decodeExcludeEntry e s) :=
  (Cut.peekType _ e).bind fun _ => Cut.ite
    ((Cut.readBooleanTlv _ e).bind fun _ => (Cut0.pure _).to e)
    ((Cut0.decodeNameComponent.bind fun _ => Cut0.pure _).to e)

theorem Cut0.decodeExclude : Cut0 inp ex decodeExclude :=
  Cut0.nested fun e => (Cut.whileBefore (Cut.decodeExcludeEntry e) _).bindE fun _ =>
    (CutE.finishNestedTlvs e _).bind fun _ => Cut0.pure _

theorem Cut0.decodeSelectors : Cut0 inp ex decodeSelectors :=
  Cut0.nested fun e =>
    (Cut.readOptionalNonNegativeIntegerTlv _ e).bindE fun _ =>
    (Cut.readOptionalNonNegativeIntegerTlv _ e).bindE fun _ =>
    (Cut.optionally _ e _ (Cut0.decodeKeyLocator _)).bindE fun _ =>
    (Cut.optionally _ e _ Cut0.decodeExclude).bindE fun _ =>
    (Cut.readOptionalNonNegativeIntegerTlv _ e).bindE fun _ =>
    (Cut.readBooleanTlv _ e).bindE fun _ =>
    (CutE.finishNestedTlvs e _).bind fun _ => Cut0.pure _

theorem Cut0.decodeLinkBytes : Cut0 inp ex decodeLinkBytes := by
  have key : ∀ i off x off', PyNDN.decodeLinkBytes.run i off = .ok (x, off') ↔
      ∃ l o, (readTypeAndLength 6).run i off = .ok (l, o) ∧ off' = l + o ∧
        x = some ((i.take (l + o)).drop off) := by
    intro i off x off'
    unfold PyNDN.decodeLinkBytes PyNDN.readNestedTlvsStart
    rw [Dec.bind_ok (getOffset_run _ _), Dec.bind_eq_ok]
    constructor
    · rintro ⟨e, o, h0, h2⟩
      obtain ⟨l, o1, h1, h3⟩ := Dec.bind_eq_ok.mp h0
      rw [Dec.bind_ok (getOffset_run _ _), Dec.pure_run] at h3
      cases h3
      rw [Dec.bind_ok (seek_run _ _ _), Dec.bind_ok (getSlice_run _ _ _ _), Dec.pure_run] at h2
      cases h2
      exact ⟨l, o, h1, rfl, rfl⟩
    · rintro ⟨l, o, h1, rfl, rfl⟩
      refine ⟨l + o, o, ?_, ?_⟩
      · rw [Dec.bind_ok h1, Dec.bind_ok (getOffset_run _ _)]; rfl
      · rw [Dec.bind_ok (seek_run _ _ _), Dec.bind_ok (getSlice_run _ _ _ _), Dec.pure_run]
  refine ⟨?_, ?_, ?_⟩
  · intro off x off' h
    obtain ⟨l, o, h1, rfl, _⟩ := (key _ _ _ _).mp h
    have := readTypeAndLength_fwd h1
    omega
  · intro off x off' h hL
    obtain ⟨l, o, h1, rfl, hx⟩ := (key _ _ _ _).mp h
    refine (key _ _ _ _).mpr ⟨l, o, readTypeAndLength_cut h1 (by omega), rfl, ?_⟩
    rw [hx, List.take_append_of_le_length hL]
  · intro off x off' hs h
    obtain ⟨l, o, h1, rfl, _⟩ := (key _ _ _ _).mp h
    have := readTypeAndLength_stuck hs h1
    exact Or.inl (by omega)

/-- `decodeInterestV02` from the forwarding hint on. -/
def v02Tail (old : Interest) (m : Dec DelegationSet) (name : Name) (b e endOffset : Nat)
    (sel : Selectors) (nonce : Bytes) (lifetime : Option Nat) : Dec (Interest × Nat × Nat) := do
  let fh ← optionally 30 endOffset m old.forwardingHint
  let link ← optionally 6 endOffset decodeLinkBytes none
  let sd ← readOptionalNonNegativeIntegerTlv 32 endOffset
  if sd ≠ none ∧ link = none then Dec.throw .runtime
  else
    finishNestedTlvs endOffset
    return ({ name := name, minSuffix := sel.minSuffix, maxSuffix := sel.maxSuffix,
              keyLocator := sel.keyLocator, exclude := sel.exclude,
              childSelector := sel.childSelector, mustBeFresh := sel.mustBeFresh,
              nonce := some nonce, lifetime := lifetime, forwardingHint := fh,
              applicationParameters := none, link := link, selectedDelegation := sd }, b, e)

/-- `decodeInterestV02` with another action for the forwarding hint. -/
def v02With (old : Interest) (m : Dec DelegationSet) : Dec (Interest × Nat × Nat) := do
  let endOffset ← readNestedTlvsStart 5
  let (name, b, e) ← decodeNameFrom
  let sel ← optionally 9 endOffset decodeSelectors {}
  let nonce ← readBlobTlv 10
  let lifetime ← readOptionalNonNegativeIntegerTlvAsFloat 12 endOffset
  v02Tail old m name b e endOffset sel nonce lifetime

theorem v02With_eq (old : Interest) : v02With old decodeForwardingHint = decodeInterestV02 old := rfl

theorem Cut0.v02With (old : Interest) : Cut0 inp ex (v02With old (Dec.throw .value)) :=
  Cut0.nested fun e =>
    (Cut0.decodeNameFrom.to e).bindE fun _ =>
    (Cut.optionally _ e _ Cut0.decodeSelectors).bindE fun _ =>
    ((Cut0.readBlobTlv _).to e).bindE fun _ =>
    (Cut.readOptionalNonNegativeIntegerTlvAsFloat _ e).bindE fun _ =>
    (Cut.optionally _ e _ (Cut0.throw _)).bindE fun _ =>
    (Cut.optionally _ e _ Cut0.decodeLinkBytes).bindE fun _ =>
    (Cut.readOptionalNonNegativeIntegerTlv _ e).bindE fun _ =>
    CutE.ite (CutE.throw _ _) ((CutE.finishNestedTlvs e _).bind fun _ => Cut0.pure _)

theorem peekType_runs {t e off off' : Nat} {i : Bytes} {x : Bool}
    (h : (peekType t e).run i off = .ok (x, off')) :
    off' = off ∧ ((e ≤ off ∧ x = false) ∨
      (off < e ∧ ∃ n o, readVarNumber.run i off = .ok (n, o) ∧ x = (n == t))) := by
  unfold PyNDN.peekType at h
  rw [Dec.bind_ok (getOffset_run _ _)] at h
  split at h
  · rw [Dec.pure_run] at h; cases h; exact ⟨rfl, Or.inl ⟨by assumption, rfl⟩⟩
  · obtain ⟨n, o, h1, h2⟩ := Dec.bind_eq_ok.mp h
    rw [Dec.bind_ok (seek_run _ _ _), Dec.pure_run] at h2
    cases h2
    exact ⟨rfl, Or.inr ⟨by omega, n, o, h1, rfl⟩⟩

/-- `peekType` where the next type is known. -/
theorem peekType_of {t e off n o : Nat} {i : Bytes} (he : off < e)
    (h : readVarNumber.run i off = .ok (n, o)) :
    (peekType t e).run i off = .ok (n == t, off) := by
  unfold PyNDN.peekType
  rw [Dec.bind_ok (getOffset_run _ _), if_neg (by omega), Dec.bind_ok h, Dec.bind_ok (seek_run _ _ _)]
  rfl

theorem finishNestedTlvs_critical {e off n o : Nat} {i : Bytes} (he : off < e)
    (h : readVarNumber.run i off = .ok (n, o)) (hc : isCritical n = true) :
    (finishNestedTlvs e).run i off = .error .value := by
  unfold PyNDN.finishNestedTlvs
  rw [Dec.bind_ok (getOffset_run _ _), if_neg (by omega)]
  refine Dec.bind_eq_error.mpr (Or.inl ?_)
  obtain ⟨k, hk⟩ : ∃ k, e - off = k + 1 := ⟨e - off - 1, by omega⟩
  rw [hk]
  unfold finishLoop
  rw [Dec.bind_ok (getOffset_run _ _), if_pos he]
  refine Dec.bind_eq_error.mpr (Or.inl ?_)
  unfold skipUnrecognized
  rw [Dec.bind_ok h]
  simp [hc]

/-- A packet with a forwarding hint after the lifetime is not a v0.3 Interest: the two layouts
exclude each other. -/
theorem v02_v03_exclude {old : Interest} {i : Bytes} {r r' : (Interest × Nat × Nat) × Nat}
    (h2 : (decodeInterestV02 old).run i 0 = .ok r) (h3 : decodeInterestV03.run i 0 = .ok r') :
    ∃ q, (v02With old (Dec.throw .value)).run i 0 = .ok q ∧ q = r := by
  rw [← v02With_eq] at h2
  unfold v02With at h2 ⊢
  unfold decodeInterestV03 at h3
  obtain ⟨e, o, g1, h2⟩ := Dec.bind_eq_ok.mp h2
  rw [Dec.bind_ok g1] at h3 ⊢
  obtain ⟨⟨name, b, c⟩, o1, g2, h2⟩ := Dec.bind_eq_ok.mp h2
  rw [Dec.bind_ok g2] at h3 ⊢
  dsimp only at h2 h3 ⊢
  obtain ⟨sel, o2, g3, h2⟩ := Dec.bind_eq_ok.mp h2
  rw [Dec.bind_ok g3]
  obtain ⟨nonce, o3, g4, h2⟩ := Dec.bind_eq_ok.mp h2
  rw [Dec.bind_ok g4]
  obtain ⟨lt, o4, g5, h2⟩ := Dec.bind_eq_ok.mp h2
  rw [Dec.bind_ok g5]
  unfold v02Tail at h2 ⊢
  obtain ⟨fh, o5, g6, h2⟩ := Dec.bind_eq_ok.mp h2
  unfold optionally at g6
  obtain ⟨p30, o4', gp, g6⟩ := Dec.bind_eq_ok.mp g6
  cases p30 with
  | false =>
    have : (optionally 30 e (Dec.throw .value) old.forwardingHint).run i o4 = .ok (fh, o5) := by
      unfold optionally
      rw [Dec.bind_ok gp]; exact g6
    rw [Dec.bind_ok this]
    exact ⟨r, h2, rfl⟩
  | true =>
    exfalso
    obtain ⟨rfl, gp⟩ := peekType_runs gp
    rcases gp with ⟨_, gp⟩ | ⟨h4e, n, on, gv, gn⟩
    · cases gp
    have hn : n = 30 := by simpa using gn.symm
    subst hn
    have opt3 : ∀ (off t : Nat), off < e → (∃ o, readVarNumber.run i off = .ok (t, o)) →
        (∀ t', t ≠ t' → (readBooleanTlv t' e).run i off = .ok (false, off)) ∧
        (∀ t', t ≠ t' → (readOptionalBlobTlv t' e).run i off = .ok (none, off)) ∧
        (∀ t', t ≠ t' → (readOptionalNonNegativeIntegerTlvAsFloat t' e).run i off = .ok (none, off)) ∧
        (∀ t' (m : Dec DelegationSet) d, t ≠ t' → (optionally t' e m d).run i off = .ok (d, off)) := by
      intro off t hlt ⟨o, hr⟩
      have hp : ∀ t', t ≠ t' → (peekType t' e).run i off = .ok (false, off) := by
        intro t' hne; rw [peekType_of hlt hr]; simp [hne]
      refine ⟨?_, ?_, ?_, ?_⟩
      · intro t' hne; unfold readBooleanTlv; rw [Dec.bind_ok (hp t' hne)]; rfl
      · intro t' hne; unfold readOptionalBlobTlv; rw [Dec.bind_ok (hp t' hne)]; rfl
      · intro t' hne
        unfold readOptionalNonNegativeIntegerTlvAsFloat readOptionalNonNegativeIntegerTlv
        rw [Dec.bind_ok (by rw [Dec.bind_ok (hp t' hne)]; rfl)]; rfl
      · intro t' m d hne; unfold optionally; rw [Dec.bind_ok (hp t' hne)]; rfl
    have f1 := Stable.getOffset
    have fw4 : o1 ≤ o2 ∧ o2 < o3 ∧ o3 ≤ o4' := by
      refine ⟨?_, ?_, ?_⟩
      · unfold optionally at g3
        obtain ⟨p, oo, k1, k2⟩ := Dec.bind_eq_ok.mp g3
        obtain ⟨rfl, _⟩ := peekType_runs k1
        cases p with
        | false => rw [if_neg (by simp), Dec.pure_run] at k2; cases k2; exact Nat.le_refl _
        | true => exact (Cut0.decodeSelectors (inp := i) (ex := [])).fwd _ _ _ (by simpa using k2)
      · exact Progress.readBlobTlv 10 _ _ _ _ g4
      · have := (Cut.readOptionalNonNegativeIntegerTlvAsFloat (inp := i) (ex := []) 12 e).fwd _ _ _
          (by simpa using g5)
        exact this
    unfold optionally at g3
    obtain ⟨p9, o1', k1, k2⟩ := Dec.bind_eq_ok.mp g3
    obtain ⟨rfl, k1⟩ := peekType_runs k1
    cases p9 with
    | true =>
      rcases k1 with ⟨_, k1⟩ | ⟨k1e, n, on', k1v, k1n⟩
      · cases k1
      have hn : n = 9 := by simpa using k1n.symm
      subst hn
      obtain ⟨b1, b2, b3, b4⟩ := opt3 _ 9 k1e ⟨_, k1v⟩
      rw [Dec.bind_ok (b1 33 (by omega)), Dec.bind_ok (b1 18 (by omega)),
        Dec.bind_ok (b4 30 _ _ (by omega)), Dec.bind_ok (b2 10 (by omega)),
        Dec.bind_ok (b3 12 (by omega)), Dec.bind_ok (b2 34 (by omega)),
        Dec.bind_ok (b2 36 (by omega)),
        Dec.bind_eq_error.mpr (Or.inl (finishNestedTlvs_critical k1e k1v rfl))] at h3
      cases h3
    | false =>
      rw [if_neg (by simp), Dec.pure_run] at k2
      cases k2
      have hblob := g4
      unfold readBlobTlv at g4
      obtain ⟨l, oo, k3, _⟩ := Dec.bind_eq_ok.mp g4
      obtain ⟨oo1, k4, _, _⟩ := readTypeAndLength_runs k3
      obtain ⟨b1, b2, b3, b4⟩ := opt3 _ 10 (by omega) ⟨_, k4⟩
      have hno : (readOptionalBlobTlv 10 e).run i o2 = .ok (some nonce, o3) := by
        unfold readOptionalBlobTlv
        rw [Dec.bind_ok (peekType_of (by omega) k4), if_pos (by rfl), Dec.bind_ok hblob]; rfl
      obtain ⟨c1, c2, c3, c4⟩ := opt3 _ 30 h4e ⟨_, gv⟩
      rw [Dec.bind_ok (b1 33 (by omega)), Dec.bind_ok (b1 18 (by omega)),
        Dec.bind_ok (b4 30 _ _ (by omega)), Dec.bind_ok hno,
        Dec.bind_ok g5, Dec.bind_ok (c2 34 (by omega)),
        Dec.bind_ok (c2 36 (by omega)),
        Dec.bind_eq_error.mpr (Or.inl (finishNestedTlvs_critical h4e gv rfl))] at h3
      cases h3

/-- With the forwarding hint excluded, a success of the v0.2 decoder is a success of the real one. -/
theorem v02With_imp {old : Interest} {i : Bytes} {r : (Interest × Nat × Nat) × Nat}
    (h2 : (v02With old (Dec.throw .value)).run i 0 = .ok r) :
    (decodeInterestV02 old).run i 0 = .ok r := by
  rw [← v02With_eq]
  unfold v02With at h2 ⊢
  obtain ⟨e, o, g1, h2⟩ := Dec.bind_eq_ok.mp h2
  rw [Dec.bind_ok g1]
  obtain ⟨⟨name, b, c⟩, o1, g2, h2⟩ := Dec.bind_eq_ok.mp h2
  rw [Dec.bind_ok g2]
  dsimp only at h2 ⊢
  obtain ⟨sel, o2, g3, h2⟩ := Dec.bind_eq_ok.mp h2
  rw [Dec.bind_ok g3]
  obtain ⟨nonce, o3, g4, h2⟩ := Dec.bind_eq_ok.mp h2
  rw [Dec.bind_ok g4]
  obtain ⟨lt, o4, g5, h2⟩ := Dec.bind_eq_ok.mp h2
  rw [Dec.bind_ok g5]
  unfold v02Tail at h2 ⊢
  obtain ⟨fh, o5, g6, h2⟩ := Dec.bind_eq_ok.mp h2
  unfold optionally at g6
  obtain ⟨p30, o4', gp, g6⟩ := Dec.bind_eq_ok.mp g6
  cases p30 with
  | true => rw [if_pos rfl, Dec.throw_run] at g6; cases g6
  | false =>
    have : (optionally 30 e decodeForwardingHint old.forwardingHint).run i o4 = .ok (fh, o5) := by
      unfold optionally
      rw [Dec.bind_ok gp]; exact g6
    rw [Dec.bind_ok this]
    exact h2

/-- Both decoders end at the end of the outer TLV. -/
theorem interest_ends {old : Interest} {i j : Bytes} {r r' : Interest × Nat × Nat} {o o' : Nat}
    (h2 : (decodeInterestV02 old).run (i ++ j) 0 = .ok (r, o))
    (h3 : decodeInterestV03.run i 0 = .ok (r', o')) : o = o' := by
  have h3' := (Stable.decodeInterestV03 _ _ _ _ (Nat.zero_le _) h3).2.2 j
  unfold decodeInterestV02 at h2
  unfold decodeInterestV03 at h3'
  obtain ⟨e, o0, g1, h2⟩ := Dec.bind_eq_ok.mp h2
  rw [Dec.bind_ok g1] at h3'
  have e2 : o = e := by
    obtain ⟨_, _, _, h2⟩ := Dec.bind_eq_ok.mp h2
    obtain ⟨_, _, _, h2⟩ := Dec.bind_eq_ok.mp h2
    obtain ⟨_, _, _, h2⟩ := Dec.bind_eq_ok.mp h2
    obtain ⟨_, _, _, h2⟩ := Dec.bind_eq_ok.mp h2
    obtain ⟨_, _, _, h2⟩ := Dec.bind_eq_ok.mp h2
    obtain ⟨_, _, _, h2⟩ := Dec.bind_eq_ok.mp h2
    obtain ⟨_, _, _, h2⟩ := Dec.bind_eq_ok.mp h2
    split at h2
    · cases h2
    · obtain ⟨_, _, hf, h2⟩ := Dec.bind_eq_ok.mp h2
      rw [Dec.pure_run] at h2; cases h2
      exact (finishNestedTlvs_inv hf).1
  have e3 : o' = e := by
    obtain ⟨_, _, _, h3'⟩ := Dec.bind_eq_ok.mp h3'
    obtain ⟨_, _, _, h3'⟩ := Dec.bind_eq_ok.mp h3'
    obtain ⟨_, _, _, h3'⟩ := Dec.bind_eq_ok.mp h3'
    obtain ⟨_, _, _, h3'⟩ := Dec.bind_eq_ok.mp h3'
    obtain ⟨_, _, _, h3'⟩ := Dec.bind_eq_ok.mp h3'
    obtain ⟨_, _, _, h3'⟩ := Dec.bind_eq_ok.mp h3'
    obtain ⟨_, _, _, h3'⟩ := Dec.bind_eq_ok.mp h3'
    obtain ⟨_, _, _, h3'⟩ := Dec.bind_eq_ok.mp h3'
    obtain ⟨_, _, hf, h3'⟩ := Dec.bind_eq_ok.mp h3'
    rw [Dec.pure_run] at h3'; cases h3'
    exact (finishNestedTlvs_inv hf).1
  omega

end PyNDN
