import Verif.Model.ReExpress
/-
C42: ExponentialReExpress.
-/
namespace PyNDN
namespace ReExpress

/-- The Interests that were expressed, in order. -/
def expressed (t : List Ev) : List Interest := t.filterMap (fun e => match e with | .express i => some i | _ => none)

/-- The calls of the application's callbacks. -/
def outcomes (t : List Ev) : List Ev := t.filter (fun e => match e with | .express _ => false | _ => true)

theorem expressed_append (a b : List Ev) : expressed (a ++ b) = expressed a ++ expressed b := List.filterMap_append
theorem outcomes_append (a b : List Ev) : outcomes (a ++ b) = outcomes a ++ outcomes b := List.filter_append ..

/-- What holds in every state. -/
structure Inv (m : Int) (i0 : Interest) (s : State) : Prop where
  max : s.maxLifetime = m
  first : (expressed s.trace)[0]? = some i0
  last : ∀ i, s.outstanding = some i → (expressed s.trace).getLast? = some i
  double : ∀ (k : Nat) (a b : Interest), (expressed s.trace)[k]? = some a → (expressed s.trace)[k + 1]? = some b →
    ∃ l : Nat, a.lifetime = some l ∧ b = { a with lifetime := some (2 * l), nonce := none } ∧ ((2 * l : Nat) : Int) ≤ m
  once : (outcomes s.trace).length ≤ 1
  none : s.outstanding ≠ none → outcomes s.trace = []

theorem inv_step {m : Int} {i0 : Interest} {s : State} (h : Inv m i0 s) (a : Action) : Inv m i0 (s.step a) := by
  have stop : Inv m i0 { s with outstanding := none } := ⟨h.max, h.first, (fun i hi => by cases hi), h.double, h.once, fun hc => absurd rfl hc⟩
  -- a callback of the application
  have call : ∀ e, outcomes [e] = [e] → expressed [e] = [] → s.outstanding ≠ none → Inv m i0 { s with outstanding := none, trace := s.trace ++ [e] } := by
    intro e h1 h2 hs
    have hx : expressed (s.trace ++ [e]) = expressed s.trace := by rw [expressed_append, h2, List.append_nil]
    refine ⟨h.max, ?_, (fun i hi => by cases hi), ?_, ?_, fun hc => absurd rfl hc⟩
    · dsimp only; rw [hx]; exact h.first
    · dsimp only; rw [hx]; exact h.double
    · dsimp only; rw [outcomes_append, h.none hs, h1]; exact Nat.le_refl 1
  cases a with
  | data =>
    unfold State.step
    dsimp only
    split
    · exact h
    · next i hi => exact call _ rfl rfl (by rw [hi]; intro hc; cases hc)
  | timeout ok =>
    unfold State.step
    dsimp only
    split
    · exact h
    · next i hi =>
      have hne : s.outstanding ≠ none := by rw [hi]; intro hc; cases hc
      have hcall : Inv m i0 (State.callOnTimeout { s with outstanding := none } i) := by
        unfold State.callOnTimeout
        split
        · exact call _ rfl rfl hne
        · exact stop
      unfold State.onTimeout
      split
      · exact hcall
      · next l hl =>
        dsimp only
        split
        · exact hcall
        · next hle =>
          split
          · have hx : expressed (s.trace ++ [.express { i with lifetime := some (l * 2), nonce := none }]) = expressed s.trace ++ [{ i with lifetime := some (l * 2), nonce := none }] := by
              rw [expressed_append]; rfl
            have hlast := h.last i hi
            have hlen : 0 < (expressed s.trace).length := by
              cases he : expressed s.trace with
              | nil => rw [he] at hlast; cases hlast
              | cons x xs => simp
            refine ⟨h.max, ?_, ?_, ?_, ?_, ?_⟩
            · dsimp only; rw [hx, List.getElem?_append_left hlen]; exact h.first
            · dsimp only; rw [hx]; intro j hj; cases hj; simp
            · dsimp only
              rw [hx]
              intro k a b ha hb
              rcases Nat.lt_trichotomy (k + 1) (expressed s.trace).length with hlt | heq | hgt
              · rw [List.getElem?_append_left (by omega)] at ha hb
                exact h.double k a b ha hb
              · rw [List.getElem?_append_left (by omega)] at ha
                rw [List.getElem?_append_right (by omega), heq, Nat.sub_self] at hb
                cases hb
                rw [List.getLast?_eq_getElem?, ← heq, Nat.add_sub_cancel, ha] at hlast
                cases hlast
                have hm := h.max
                refine ⟨l, hl, by rw [Nat.mul_comm], ?_⟩
                omega
              · rw [List.getElem?_eq_none (by simp; omega)] at hb
                cases hb
            · dsimp only; rw [outcomes_append, h.none hne]; exact Nat.zero_le 1
            · dsimp only; intro _; rw [outcomes_append, h.none hne]; rfl
          · exact stop

theorem inv_start (m : Option Int) (b : Bool) (i : Interest) : Inv (m.getD 16000) i (start m b i) := by
  refine ⟨rfl, rfl, ?_, ?_, Nat.zero_le 1, fun _ => rfl⟩
  · intro j hj; cases hj; rfl
  · intro k a b _ hb
    cases hb

theorem inv_run (m : Option Int) (b : Bool) (i : Interest) (as : List Action) : Inv (m.getD 16000) i ((start m b i).run as) := by
  have h := inv_start m b i
  generalize start m b i = s at h
  unfold State.run
  induction as generalizing s with
  | nil => exact h
  | cons a as ih => exact ih _ (inv_step h a)

/-- C42: the first Interest that is expressed is the application's; every one after it is the same as the one before except that its lifetime is
doubled (and its nonce is new), and the new lifetime is at most the maximum (16 seconds if it is not given). -/
theorem C42_double (m : Option Int) (b : Bool) (i : Interest) (as : List Action) :
    let t := ((start m b i).run as).trace
    (expressed t)[0]? = some i ∧
    ∀ (k : Nat) (x y : Interest), (expressed t)[k]? = some x → (expressed t)[k + 1]? = some y →
      ∃ l : Nat, x.lifetime = some l ∧ y = { x with lifetime := some (2 * l), nonce := none } ∧ ((2 * l : Nat) : Int) ≤ m.getD 16000 :=
  ⟨(inv_run m b i as).first, (inv_run m b i as).double⟩

/-- C42: the application is called back at most once. -/
theorem C42_once (m : Option Int) (b : Bool) (i : Interest) (as : List Action) : (outcomes ((start m b i).run as).trace).length ≤ 1 :=
  (inv_run m b i as).once

theorem timeout_run (m : Int) : ∀ (k : Nat) (s : State) (i : Interest) (l : Nat), s.maxLifetime = m → s.hasOnTimeout = true → s.outstanding = some i →
    i.lifetime = some l → 0 < k → m < ((2 ^ k * l : Nat) : Int) →
    ∃ j, (s.run (List.replicate k (.timeout true))).outstanding = none ∧
      outcomes (s.run (List.replicate k (.timeout true))).trace = outcomes s.trace ++ [.onTimeout j] ∧ j.name = i.name := by
  intro k
  induction k with
  | zero => intro s i l _ _ _ _ h; omega
  | succ k ih =>
    intro s i l hm ht ho hl _ hk
    have hrun : s.run (List.replicate (k + 1) (.timeout true)) = (s.step (.timeout true)).run (List.replicate k (.timeout true)) := rfl
    rw [hrun]
    have hstep : s.step (.timeout true) = { s with outstanding := none }.onTimeout i true := by unfold State.step; rw [ho]
    by_cases hgt : ((l * 2 : Nat) : Int) > m
    · have hs : s.step (.timeout true) = { s with outstanding := none, trace := s.trace ++ [.onTimeout i] } := by
        rw [hstep]
        unfold State.onTimeout State.callOnTimeout
        rw [hl]
        dsimp only
        rw [hm, if_pos hgt, if_pos ht]
      rw [hs]
      have hstay : ∀ (as : List Action) (s : State), s.outstanding = none → s.run as = s := by
        intro as
        unfold State.run
        induction as with
        | nil => intro s _; rfl
        | cons a as ih' =>
          intro s h0
          have : s.step a = s := by unfold State.step; cases a <;> rw [h0]
          rw [List.foldl_cons, this]
          exact ih' s h0
      rw [hstay _ _ rfl]
      exact ⟨i, rfl, by dsimp only; rw [outcomes_append]; rfl, rfl⟩
    · have hs : s.step (.timeout true) = { s with outstanding := some { i with lifetime := some (l * 2), nonce := none }, trace := s.trace ++ [.express { i with lifetime := some (l * 2), nonce := none }] } := by
        rw [hstep]
        unfold State.onTimeout
        rw [hl]
        dsimp only
        rw [hm, if_neg hgt, if_pos rfl]
      rw [hs]
      have hk0 : 0 < k := by
        refine Nat.pos_of_ne_zero fun h0 => ?_
        subst h0
        simp at hk
        omega
      obtain ⟨j, h1, h2, h3⟩ := ih { s with outstanding := some { i with lifetime := some (l * 2), nonce := none }, trace := s.trace ++ [.express { i with lifetime := some (l * 2), nonce := none }] }
        { i with lifetime := some (l * 2), nonce := none } (l * 2) hm ht rfl rfl hk0 (by
          have : 2 ^ (k + 1) * l = 2 ^ k * (l * 2) := by rw [Nat.pow_succ]; ac_rfl
          rw [← this]; exact hk)
      refine ⟨j, h1, ?_, h3⟩
      rw [h2, outcomes_append]
      simp [outcomes]

/-- C42: if the lifetime is not zero then after finitely many timeouts (if no Data comes and expressing does not raise) the application's onTimeout is
called: after k timeouts if 2^k times the lifetime is more than the maximum.  It is called for an Interest with the same name. -/
theorem C42_finite_partial (m : Option Int) (i : Interest) {l k : Nat} (hl : i.lifetime = some l) (hk0 : 0 < k) (hk : m.getD 16000 < ((2 ^ k * l : Nat) : Int)) :
    ∃ j, outcomes ((start m true i).run (List.replicate k (.timeout true))).trace = [.onTimeout j] ∧ j.name = i.name := by
  obtain ⟨j, _, h2, h3⟩ := timeout_run (m.getD 16000) k (start m true i) i l rfl rfl rfl hl hk0 hk
  exact ⟨j, h2, h3⟩

/-- Such a k exists if the lifetime is not zero. -/
theorem C42_finite_exists_partial (m : Option Int) (i : Interest) {l : Nat} (hl : i.lifetime = some l) (h0 : 0 < l) :
    ∃ k j, outcomes ((start m true i).run (List.replicate k (.timeout true))).trace = [.onTimeout j] ∧ j.name = i.name := by
  refine ⟨(m.getD 16000).toNat + 1, C42_finite_partial m i hl (by omega) ?_⟩
  have h1 : (m.getD 16000).toNat + 1 < 2 ^ ((m.getD 16000).toNat + 1) := Nat.lt_two_pow_self
  have h2 : 2 ^ ((m.getD 16000).toNat + 1) ≤ 2 ^ ((m.getD 16000).toNat + 1) * l := Nat.le_mul_of_pos_right _ h0
  omega

/-- C42: an Interest without a lifetime is not re-expressed: the application's onTimeout is called at once. -/
theorem C42_no_lifetime (m : Option Int) (i : Interest) (hl : i.lifetime = none) (ok : Bool) :
    ((start m true i).run [.timeout ok]).trace = [.express i, .onTimeout i] := by
  show (State.step (start m true i) (.timeout ok)).trace = _
  unfold State.step start
  dsimp only
  unfold State.onTimeout
  rw [hl]
  rfl

/-! ### Examples -/

example : let i : Interest := { name := [⟨.generic, [65]⟩], lifetime := some 5000, nonce := some [1, 2, 3, 4] }
    ((start none true i).run [.timeout true, .timeout true]).trace =
      [.express i, .express { i with lifetime := some 10000, nonce := none }, .onTimeout { i with lifetime := some 10000, nonce := none }] ∧
    ((start (some 40000) true i).run [.timeout true, .timeout true, .timeout true, .data]).trace.map (fun e => match e with | .express j => j.lifetime | _ => none) =
      [some 5000, some 10000, some 20000, some 40000, none] := by
  decide

/-- Why `C42_finite_partial` is partial: an Interest with the lifetime 0 is expressed again for ever, with the lifetime 0, and onTimeout is never called. -/
theorem C42_zero (m : Option Int) (hm : 0 ≤ m.getD 16000) (i : Interest) (hl : i.lifetime = some 0) (k : Nat) :
    outcomes ((start m true i).run (List.replicate k (.timeout true))).trace = [] ∧
    (expressed ((start m true i).run (List.replicate k (.timeout true))).trace).length = k + 1 := by
  have key : ∀ (k : Nat) (s : State) (i : Interest), s.maxLifetime = m.getD 16000 → s.outstanding = some i → i.lifetime = some 0 →
      outcomes (s.run (List.replicate k (.timeout true))).trace = outcomes s.trace ∧
      (expressed (s.run (List.replicate k (.timeout true))).trace).length = (expressed s.trace).length + k := by
    intro k
    induction k with
    | zero => intro s i _ _ _; exact ⟨rfl, rfl⟩
    | succ k ih =>
      intro s i hmx ho hl
      have hs : s.step (.timeout true) = { s with outstanding := some { i with lifetime := some 0, nonce := none }, trace := s.trace ++ [.express { i with lifetime := some 0, nonce := none }] } := by
        unfold State.step
        rw [ho]
        dsimp only
        unfold State.onTimeout
        rw [hl]
        dsimp only
        rw [hmx, if_neg (by simp; exact hm), if_pos rfl]
      have hrun : s.run (List.replicate (k + 1) (.timeout true)) = (s.step (.timeout true)).run (List.replicate k (.timeout true)) := rfl
      rw [hrun, hs]
      obtain ⟨h1, h2⟩ := ih { s with outstanding := some { i with lifetime := some 0, nonce := none }, trace := s.trace ++ [.express { i with lifetime := some 0, nonce := none }] } { i with lifetime := some 0, nonce := none } hmx rfl rfl
      rw [h1, h2]
      dsimp only
      rw [outcomes_append, expressed_append, List.length_append]
      refine ⟨by simp [outcomes], ?_⟩
      show (expressed s.trace).length + 1 + k = _
      omega
  obtain ⟨h1, h2⟩ := key k (start m true i) i rfl rfl hl
  exact ⟨h1, by rw [h2]; exact Nat.add_comm 1 k⟩

end ReExpress
end PyNDN
