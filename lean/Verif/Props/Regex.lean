import Verif.Lemmas.RegexTop
/-
C55: regular expressions on names.
-/
namespace PyNDN.Regex
open PyNDN PyNDN.Spec.Regex

/-! ### The loops -/

theorem tryDown_sound {f : Nat → Caps → Bool × Caps} : ∀ {n : Nat} {s s' : Caps},
    tryDown f n s = (true, s') → ∃ t, t ≤ n ∧ ∃ s0, f t s0 = (true, s')
  | 0, s, s', h => ⟨0, Nat.le_refl _, s, h⟩
  | n + 1, s, s', h => by
    unfold tryDown at h
    split at h
    · rename_i s1 h1
      cases h
      exact ⟨n + 1, Nat.le_refl _, s, h1⟩
    · obtain ⟨t, ht, s0, h0⟩ := tryDown_sound h
      exact ⟨t, by omega, s0, h0⟩

theorem tryDown_complete {f : Nat → Caps → Bool × Caps} {t : Nat} (ht : ∀ s, (f t s).1 = true) :
    ∀ {n : Nat}, t ≤ n → ∀ s, (tryDown f n s).1 = true
  | 0, hn, s => by
    have : t = 0 := by omega
    subst this
    exact ht s
  | n + 1, hn, s => by
    unfold tryDown
    split
    · rfl
    · rename_i s1 h1
      by_cases hte : t = n + 1
      · subst hte
        have := ht s
        rw [h1] at this
        cases this
      · exact tryDown_complete ht (by omega) s1

theorem andThen_true {m rest : Nat → Nat → Caps → Bool × Caps} {o l t : Nat} {s s' : Caps}
    (h : andThen m rest o l t s = (true, s')) :
    ∃ s1, m o t s = (true, s1) ∧ rest (o + t) (l - t) s1 = (true, s') := by
  unfold andThen at h
  split at h
  · rename_i s1 h1
    exact ⟨s1, h1, h⟩
  · cases h

theorem andThen_complete {m rest : Nat → Nat → Caps → Bool × Caps} {o l t : Nat}
    (h1 : ∀ s, (m o t s).1 = true) (h2 : ∀ s, (rest (o + t) (l - t) s).1 = true) (s : Caps) :
    (andThen m rest o l t s).1 = true := by
  unfold andThen
  split
  · exact h2 _
  · rename_i s1 h
    have := h1 s
    rw [h] at this
    cases this

theorem slice_split (name : Name) {o l t : Nat} (ht : t ≤ l) :
    slice name o l = slice name o t ++ slice name (o + t) (l - t) := by
  unfold slice
  have hl : l = t + (l - t) := by omega
  conv => lhs; rw [hl]
  rw [List.take_add, List.drop_drop]

theorem slice_zero (name : Name) (o : Nat) : slice name o 0 = [] := by simp [slice]

theorem slice_length (name : Name) {o l : Nat} (h : o + l ≤ name.length) : (slice name o l).length = l := by
  unfold slice
  simp
  omega

theorem slice_one (name : Name) {o : Nat} (c : Component) (h : name[o]? = some c) : slice name o 1 = [c] := by
  unfold slice
  rw [List.getElem?_eq_some_iff] at h
  obtain ⟨ho, hc⟩ := h
  rw [List.drop_eq_getElem_cons ho, hc]
  simp

/-! ### Soundness -/

theorem repLoop_sound {name : Name} {m : Nat → Nat → Caps → Bool × Caps} {L : List Component → Prop}
    (hm : ∀ o l s s', m o l s = (true, s') → L (slice name o l)) {min : Nat} :
    ∀ (k r o l : Nat) (s s' : Caps), repLoop m min k r o l s = (true, s') →
      ∃ n, n ≤ k ∧ min ≤ r + n ∧ Pow L n (slice name o l)
  | 0, r, o, l, s, s', h => by
    unfold repLoop at h
    have h1 := congrArg Prod.fst h
    simp at h1
    rw [h1.1, slice_zero]
    exact ⟨0, Nat.le_refl _, by omega, rfl⟩
  | k + 1, r, o, l, s, s', h => by
    unfold repLoop at h
    split at h
    · rename_i hl
      have h1 := congrArg Prod.fst h
      simp at h1
      rw [hl, slice_zero]
      exact ⟨0, by omega, by omega, rfl⟩
    · obtain ⟨t, ht, s0, h0⟩ := tryDown_sound h
      obtain ⟨s1, h1, h2⟩ := andThen_true h0
      obtain ⟨n, hn, hmin, hp⟩ := repLoop_sound hm k (r + 1) _ _ _ _ h2
      exact ⟨n + 1, by omega, by omega, _, _, slice_split name ht, hm _ _ _ _ h1, hp⟩

theorem run_sound (name : Name) : ∀ (m : Rx) (o l : Nat) (s s' : Caps),
    m.run name o l s = (true, s') → Lang m (slice name o l)
  | .set test, o, l, s, s', h => by
    unfold Rx.run at h
    split at h
    · cases h
    · rename_i hl
      have hl1 : l = 1 := by omega
      split at h
      · rename_i c hc
        have h1 := congrArg Prod.fst h
        rw [hl1, slice_one name c hc]
        exact ⟨c, rfl, h1⟩
      · cases h
  | .nil, o, l, s, s', h => by
    unfold Rx.run at h
    have h1 := congrArg Prod.fst h
    simp at h1
    rw [h1, slice_zero]
    rfl
  | .cons m rest, o, l, s, s', h => by
    unfold Rx.run at h
    obtain ⟨t, ht, s0, h0⟩ := tryDown_sound h
    obtain ⟨s1, h1, h2⟩ := andThen_true h0
    exact ⟨_, _, slice_split name ht, run_sound name m _ _ _ _ h1, run_sound name rest _ _ _ _ h2⟩
  | .group k body, o, l, s, s', h => by
    unfold Rx.run at h
    split at h
    · rename_i s2 h2
      obtain ⟨t, ht, s0, h0⟩ := tryDown_sound h2
      obtain ⟨s1, h1, h3⟩ := andThen_true h0
      have h4 := congrArg Prod.fst h3
      simp at h4
      have : t = l := by omega
      subst this
      exact run_sound name body _ _ _ _ h1
    · cases h
  | .rep min max m, o, l, s, s', h => by
    unfold Rx.run at h
    split at h
    · rename_i hz
      rw [hz.2, slice_zero]
      exact ⟨0, by omega, by omega, rfl⟩
    · obtain ⟨n, h1, h2, h3⟩ := repLoop_sound (run_sound name m) max 0 o l s s' h
      exact ⟨n, by omega, h1, h3⟩

/-! ### Completeness -/

/-- Leave out the empty parts. -/
theorem pow_nonempty {L : List Component → Prop} : ∀ {n : Nat} {w : List Component}, Pow L n w →
    (¬ L [] → Pow (fun u => L u ∧ u ≠ []) n w) ∧ ∃ n', n' ≤ n ∧ Pow (fun u => L u ∧ u ≠ []) n' w
  | 0, w, h => ⟨fun _ => h, 0, Nat.le_refl _, h⟩
  | n + 1, w, h => by
    obtain ⟨u, v, rfl, hu, hv⟩ := h
    obtain ⟨h1, n', hn, h2⟩ := pow_nonempty hv
    refine ⟨fun hne => ⟨u, v, rfl, ⟨hu, fun h => hne (h ▸ hu)⟩, h1 hne⟩, ?_⟩
    by_cases hue : u = []
    · subst hue
      exact ⟨n', by omega, h2⟩
    · exact ⟨n' + 1, by omega, u, v, rfl, ⟨hu, hue⟩, h2⟩

theorem repLoop_complete {name : Name} {m : Nat → Nat → Caps → Bool × Caps} {L : List Component → Prop}
    (hm : ∀ o l, o + l ≤ name.length → L (slice name o l) → ∀ s, (m o l s).1 = true) {min : Nat} :
    ∀ (n k r o l : Nat), n ≤ k → min ≤ r + n → o + l ≤ name.length →
      Pow (fun u => L u ∧ u ≠ []) n (slice name o l) → ∀ s, (repLoop m min k r o l s).1 = true
  | 0, k, r, o, l, hk, hmin, hl, h, s => by
    have h0 : l = 0 := by
      have := slice_length name hl
      rw [show slice name o l = [] from h] at this
      simpa using this.symm
    subst h0
    cases k with
    | zero => unfold repLoop; simp; omega
    | succ k => unfold repLoop; simp; omega
  | n + 1, k, r, o, l, hk, hmin, hl, h, s => by
    obtain ⟨k, rfl⟩ : ∃ k', k = k' + 1 := ⟨k - 1, by omega⟩
    obtain ⟨u, v, huv, ⟨hu, hne⟩, hv⟩ := h
    have hlen := slice_length name hl
    rw [huv, List.length_append] at hlen
    have hupos : 0 < u.length := List.length_pos_iff.2 hne
    have hsplit := slice_split name (o := o) (l := l) (t := u.length) (by omega)
    rw [huv] at hsplit
    have hl1 := slice_length name (o := o) (l := u.length) (by omega)
    have hu' : u = slice name o u.length := (List.append_inj hsplit hl1.symm).1
    have hv' : v = slice name (o + u.length) (l - u.length) := (List.append_inj hsplit hl1.symm).2
    unfold repLoop
    rw [if_neg (by omega)]
    refine tryDown_complete (t := u.length) ?_ (by omega) s
    refine andThen_complete (hm _ _ (by omega) (hu' ▸ hu)) ?_
    exact repLoop_complete hm n k (r + 1) _ _ (by omega) (by omega) (by omega) (hv' ▸ hv)

theorem run_complete (name : Name) : ∀ (m : Rx), Solid m → ∀ (o l : Nat), o + l ≤ name.length →
    Lang m (slice name o l) → ∀ s, (m.run name o l s).1 = true
  | .set test, _, o, l, hl, h, s => by
    obtain ⟨c, hc, ht⟩ := h
    have hlen := slice_length name hl
    rw [hc] at hlen
    have hl1 : l = 1 := by simpa using hlen.symm
    subst hl1
    have hget : name[o]? = some c := by
      have ho : o < name.length := by omega
      have := slice_one name _ (List.getElem?_eq_getElem ho)
      rw [hc] at this
      rw [List.getElem?_eq_getElem ho]
      simpa using (List.cons.inj this).1.symm
    unfold Rx.run
    simp only [ne_eq, not_true_eq_false, if_false, hget]
    exact ht
  | .nil, _, o, l, hl, h, s => by
    have hlen := slice_length name hl
    rw [show slice name o l = [] from h] at hlen
    unfold Rx.run
    simp at hlen ⊢
    omega
  | .cons m rest, ⟨hs1, hs2⟩, o, l, hl, h, s => by
    obtain ⟨u, v, huv, hu, hv⟩ := h
    have hlen := slice_length name hl
    rw [huv, List.length_append] at hlen
    have hsplit := slice_split name (o := o) (l := l) (t := u.length) (by omega)
    rw [huv] at hsplit
    have hl1 := slice_length name (o := o) (l := u.length) (by omega)
    have hu' : u = slice name o u.length := (List.append_inj hsplit hl1.symm).1
    have hv' : v = slice name (o + u.length) (l - u.length) := (List.append_inj hsplit hl1.symm).2
    unfold Rx.run
    refine tryDown_complete (t := u.length) ?_ (by omega) s
    refine andThen_complete ?_ ?_
    · exact run_complete name m hs1 _ _ (by omega) (hu' ▸ hu)
    · exact run_complete name rest hs2 _ _ (by omega) (hv' ▸ hv)
  | .group k body, hs, o, l, hl, h, s => by
    unfold Rx.run
    have : (tryDown (andThen (body.run name) (fun _ length s => (length == 0, s)) o l) l (s.set k [])).1
        = true := by
      refine tryDown_complete (t := l) ?_ (Nat.le_refl _) _
      refine andThen_complete (run_complete name body hs _ _ hl h) ?_
      intro s
      simp
    split
    · rfl
    · rename_i s2 h2
      rw [h2] at this
      cases this
  | .rep min max m, ⟨hs, hmin⟩, o, l, hl, h, s => by
    obtain ⟨n, h1, h2, h3⟩ := h
    unfold Rx.run
    split
    · rfl
    · obtain ⟨p1, n', hn', p2⟩ := pow_nonempty h3
      rcases hmin with h0 | hne
      · subst h0
        exact repLoop_complete (run_complete name m hs) n' max 0 o l (by omega) (by omega) hl p2 s
      · exact repLoop_complete (run_complete name m hs) n max 0 o l (by omega) (by omega) hl (p1 hne) s

/-! ### C55 -/

/-- The names that a compiled expression denotes. -/
def Top.Denotes (t : Top) (name : Name) : Prop :=
  Lang t.primary name ∨ ∃ m n, t.secondary = some (m, n) ∧ Lang m name

theorem slice_all (name : Name) : slice name 0 name.length = name := by simp [slice]

/-- `match` accepts only names that the expression denotes, whatever has been matched before. -/
theorem top_sound (t : Top) (name : Name) (s : TopState) (h : (t.run name s).1 = true) :
    t.Denotes name := by
  unfold Top.run at h
  split at h
  · rename_i c1 h1
    exact .inl (slice_all name ▸ run_sound name _ _ _ _ _ h1)
  · split at h
    · cases h
    · rename_i m n hm
      split at h
      · rename_i c2 h2
        exact .inr ⟨m, n, hm, slice_all name ▸ run_sound name _ _ _ _ _ h2⟩
      · cases h

/-- `match` accepts every name that the expression denotes, whatever has been matched before, if what
the expression repeats at least once is never empty. -/
theorem top_complete (t : Top) (hp : Solid t.primary) (hq : ∀ m n, t.secondary = some (m, n) → Solid m)
    (name : Name) (s : TopState) (h : t.Denotes name) : (t.run name s).1 = true := by
  unfold Top.run
  split
  · rfl
  · rename_i c1 h1
    have hno : ¬ Lang t.primary name := by
      intro hl
      have := run_complete name t.primary hp 0 name.length (by omega) (by rw [slice_all]; exact hl) s.caps1
      rw [h1] at this
      cases this
    obtain ⟨m, n, hm, hl⟩ := h.resolve_left hno
    rw [hm]
    dsimp only
    have := run_complete name m (hq m n hm) 0 name.length (by omega) (by rw [slice_all]; exact hl) s.caps2
    split
    · rfl
    · rename_i c2 h2
      rw [h2] at this
      cases this

/-! ### Captures -/

theorem tryDown_caps {f : Nat → Caps → Bool × Caps} {k : Nat}
    (hf : ∀ t s, (f t s).2 k = s k) : ∀ n s, (tryDown f n s).2 k = s k
  | 0, s => hf 0 s
  | n + 1, s => by
    unfold tryDown
    have := hf (n + 1) s
    split
    · rename_i s1 h1; rw [h1] at this; exact this
    · rename_i s1 h1
      rw [h1] at this
      rw [tryDown_caps hf n s1]
      exact this

theorem andThen_caps {m rest : Nat → Nat → Caps → Bool × Caps} {k : Nat}
    (hm : ∀ o l s, (m o l s).2 k = s k) (hr : ∀ o l s, (rest o l s).2 k = s k) (o l t : Nat) (s : Caps) :
    (andThen m rest o l t s).2 k = s k := by
  unfold andThen
  have h := hm o t s
  split
  · rename_i s1 h1
    rw [h1] at h
    rw [hr]
    exact h
  · rename_i s1 h1
    rw [h1] at h
    exact h

theorem repLoop_caps {m : Nat → Nat → Caps → Bool × Caps} {k : Nat}
    (hm : ∀ o l s, (m o l s).2 k = s k) (min : Nat) : ∀ n r o l s, (repLoop m min n r o l s).2 k = s k
  | 0, r, o, l, s => rfl
  | n + 1, r, o, l, s => by
    unfold repLoop
    split
    · rfl
    · exact tryDown_caps (andThen_caps hm (repLoop_caps hm min n (r + 1)) o l) l s

/-- Matching changes only the captures of the groups in the expression. -/
theorem run_caps (name : Name) (k : Nat) : ∀ (m : Rx), k ∉ groups m → ∀ o l s, (m.run name o l s).2 k = s k
  | .set test, _, o, l, s => by
    unfold Rx.run
    split
    · rfl
    · split <;> rfl
  | .nil, _, o, l, s => rfl
  | .cons m rest, hk, o, l, s => by
    simp only [groups, List.mem_append, not_or] at hk
    unfold Rx.run
    exact tryDown_caps (andThen_caps (run_caps name k m hk.1) (run_caps name k rest hk.2) o l) l s
  | .group j body, hk, o, l, s => by
    simp only [groups, List.mem_cons, not_or] at hk
    unfold Rx.run
    have hset : ∀ (s : Caps) v, (s.set j v) k = s k := by
      intro s v
      unfold Caps.set
      rw [if_neg hk.1]
    have := tryDown_caps (f := andThen (body.run name) (fun _ length s => (length == 0, s)) o l) (k := k)
      (andThen_caps (run_caps name k body hk.2) (fun _ _ _ => rfl) o l) l (s.set j [])
    split
    · rename_i s1 h1
      rw [h1] at this
      dsimp only
      rw [hset]
      exact this.trans (hset s [])
    · rename_i s1 h1
      rw [h1] at this
      exact this.trans (hset s [])
  | .rep min max m, hk, o, l, s => by
    unfold Rx.run
    split
    · rfl
    · exact repLoop_caps (run_caps name k m hk) min max 0 o l s

theorem capture_congr : ∀ (m : Rx) {w : List Component} {a b : Nat → List Component},
    (∀ k ∈ groups m, a k = b k) → Capture m w a → Capture m w b
  | .set _, _, _, _, _, h => h
  | .nil, _, _, _, _, h => h
  | .cons m rest, w, a, b, hab, ⟨u, v, huv, hu, hv⟩ =>
    ⟨u, v, huv, capture_congr m (fun k hk => hab k (List.mem_append_left _ hk)) hu,
      capture_congr rest (fun k hk => hab k (List.mem_append_right _ hk)) hv⟩
  | .group j body, w, a, b, hab, ⟨h1, h2⟩ =>
    ⟨(hab j (List.mem_cons_self ..)) ▸ h1, capture_congr body (fun k hk => hab k (List.mem_cons_of_mem _ hk)) h2⟩
  | .rep _ _ _, _, _, _, _, h => h

/-- The captures after a successful match, if no group is repeated and no two have the same number. -/
theorem run_capture (name : Name) : ∀ (m : Rx), Plain m → (groups m).Nodup → ∀ (o l : Nat) (s s' : Caps),
    m.run name o l s = (true, s') → Capture m (slice name o l) s'
  | .set test, _, _, o, l, s, s', h => run_sound name (.set test) o l s s' h
  | .nil, _, _, o, l, s, s', h => run_sound name .nil o l s s' h
  | .cons m rest, ⟨hp1, hp2⟩, hn, o, l, s, s', h => by
    simp only [groups, List.nodup_append] at hn
    unfold Rx.run at h
    obtain ⟨t, ht, s0, h0⟩ := tryDown_sound h
    obtain ⟨s1, h1, h2⟩ := andThen_true h0
    refine ⟨_, _, slice_split name ht, ?_, run_capture name rest hp2 hn.2.1 _ _ _ _ h2⟩
    refine capture_congr m ?_ (run_capture name m hp1 hn.1 _ _ _ _ h1)
    intro k hk
    have := run_caps name k rest (fun hr => hn.2.2 k hk k hr rfl) (o + t) (l - t) s1
    rw [h2] at this
    exact this.symm
  | .group k body, hp, hn, o, l, s, s', h => by
    simp only [groups, List.nodup_cons] at hn
    unfold Rx.run at h
    split at h
    · rename_i s2 h2
      cases h
      obtain ⟨t, ht, s0, h0⟩ := tryDown_sound h2
      obtain ⟨s1, h1, h3⟩ := andThen_true h0
      have h4 := congrArg Prod.fst h3
      have h5 := congrArg Prod.snd h3
      simp at h4 h5
      have : t = l := by omega
      subst this
      subst h5
      refine ⟨by simp [Caps.set], capture_congr body ?_ (run_capture name body hp hn.2 _ _ _ _ h1)⟩
      intro j hj
      have : j ≠ k := fun h => hn.1 (h ▸ hj)
      simp [Caps.set, this]
    · cases h
  | .rep min max m, _, _, o, l, s, s', h => run_sound name (.rep min max m) o l s s' h

/-- After a successful match, if no group is repeated, the groups hold parts of the name into which the
expression splits it, whatever has been matched before. -/
theorem top_capture (t : Top) (name : Name) (s s' : TopState)
    (hp : Plain t.primary ∧ (groups t.primary).Nodup)
    (hq : ∀ m n, t.secondary = some (m, n) → Plain m ∧ (groups m).Nodup)
    (h : t.run name s = (true, s')) :
    s'.result = name ∧
    ((s'.secondaryUsed = false ∧ Capture t.primary name s'.caps1) ∨
      (s'.secondaryUsed = true ∧ ∃ m n, t.secondary = some (m, n) ∧ Capture m name s'.caps2)) := by
  unfold Top.run at h
  split at h
  · rename_i c1 h1
    cases h
    have := run_capture name t.primary hp.1 hp.2 _ _ _ _ h1
    rw [slice_all] at this
    exact ⟨rfl, .inl ⟨rfl, this⟩⟩
  · split at h
    · cases h
    · rename_i m n hm
      split at h
      · rename_i c2 h2
        cases h
        have := run_capture name m (hq m n hm).1 (hq m n hm).2 _ _ _ _ h2
        rw [slice_all] at this
        exact ⟨rfl, .inr ⟨rfl, m, n, hm, this⟩⟩
      · cases h

/-! ### C55: what an expression matches and captures -/

/-- An expression of the supported syntax compiles.  Whatever has been matched before, `match` then
accepts only names that the expression denotes. -/
theorem C55_sound (search : List Char → List Char → Bool) (start stop : Bool) (p : Pat) (hp : p.Ok)
    (hne : start = true ∨ p ≠ .nil) :
    ∃ t, compile search (exprText start stop p) = .ok t ∧
      ∀ name s, (t.run name s).1 = true → Denotes search start stop p name := by
  refine ⟨_, compile_text search start stop p hp hne, ?_⟩
  intro name s h
  have hpat : ∀ w, (patOf stop p).Lang search w → ∃ b c, w = b ++ c ∧ (stop = true → c = []) ∧
      p.Lang search b := by
    intro w hw
    unfold patOf at hw
    split at hw
    · exact ⟨w, [], by simp, fun _ => rfl, hw⟩
    · rename_i hs
      obtain ⟨u, v, e, hu, _⟩ := (append_lang p _ w).1 hw
      exact ⟨u, v, e, fun h => absurd h hs, hu⟩
  rcases top_sound _ name s h with h | ⟨m, n, hm, h⟩
  · obtain ⟨b, c, e, hc, hb⟩ := hpat _ ((toRx_lang search _ _ _).1 h)
    exact ⟨[], b, c, by simpa using e, fun _ => rfl, hc, hb⟩
  · cases start with
    | true => cases hm
    | false =>
      have hm' : some (toRx search (anyPat (patOf stop p)) 0) = some (m, n) := hm
      have : m = (toRx search (anyPat (patOf stop p)) 0).1 := by
        rw [Option.some.injEq] at hm'; rw [hm']
      subst this
      obtain ⟨a, v, e, _, _, _, hv⟩ := (toRx_lang search _ _ _).1 h
      obtain ⟨b, c, e2, hc, hb⟩ := hpat _ hv
      subst e2
      exact ⟨a, b, c, by simpa using e, (fun h => by cases h), hc, hb⟩

/-- It accepts every name of at most 32767 components that the expression denotes, if no group that has
to be repeated can stand for nothing. -/
theorem C55_complete (search : List Char → List Char → Bool) (hany : ∀ t, search ".*".toList t = true)
    (start stop : Bool) (p : Pat) (hp : p.Ok) (hs : p.Solid search) (hne : start = true ∨ p ≠ .nil) :
    ∃ t, compile search (exprText start stop p) = .ok t ∧
      ∀ name s, name.length ≤ 32767 → Denotes search start stop p name → (t.run name s).1 = true := by
  have hsolid : (patOf stop p).Solid search := by
    unfold patOf
    split
    · exact hs
    · exact append_solid p _ hs trivial
  refine ⟨_, compile_text search start stop p hp hne, ?_⟩
  rintro name s hlen ⟨a, b, c, e, ha, hc, hb⟩
  have hlen' : a.length ≤ 32767 ∧ c.length ≤ 32767 := by
    subst e; simp at hlen; omega
  have hpat : (patOf stop p).Lang search (b ++ c) := by
    unfold patOf
    split
    · rename_i h
      rw [hc h]
      simpa using hb
    · refine (append_lang p _ _).2 ⟨b, c, rfl, hb, c, [], by simp, Nat.zero_le _, hlen'.2, ?_, rfl⟩
      exact fun x _ => .inr (hany _)
  refine top_complete _ (toRx_solid search _ _ hsolid) ?_ name s ?_
  · intro m n hm
    cases start with
    | true => cases hm
    | false =>
      have hm' : some (toRx search (anyPat (patOf stop p)) 0) = some (m, n) := hm
      rw [Option.some.injEq] at hm'
      have : m = (toRx search (anyPat (patOf stop p)) 0).1 := by rw [hm']
      subst this
      exact toRx_solid search (anyPat (patOf stop p)) 0 hsolid
  · cases start with
    | true =>
      left
      rw [ha rfl] at e
      subst e
      exact (toRx_lang search _ _ _).2 hpat
    | false =>
      right
      refine ⟨_, _, rfl, (toRx_lang search (anyPat (patOf stop p)) 0 _).2 ?_⟩
      exact ⟨a, b ++ c, by rw [e]; simp, Nat.zero_le _, hlen'.1, fun x _ => .inr (hany _), hpat⟩

theorem split_cons {search : List Char → List Char → Bool} {p : Pat} {k : Nat} {w : List Component}
    {cap : Nat → List Component} (h : (anyPat p).Split search k w cap) :
    ∃ a v, w = a ++ v ∧ p.Split search k v cap := by
  obtain ⟨a, v, e, _, _, _, h⟩ := h
  exact ⟨a, v, e, h⟩

theorem strDec_takeWhile (n : Nat) : (strDec n).takeWhile reDigit = strDec n ∧
    (strDec n).dropWhile reDigit = [] := by
  have h := strDec_reDigit n
  generalize strDec n = l at h
  induction l with
  | nil => exact ⟨rfl, rfl⟩
  | cons c l ih =>
    obtain ⟨h1, h2⟩ := ih (fun x hx => h x (List.mem_cons_of_mem _ hx))
    have hc := h c (List.mem_cons_self ..)
    simp [List.takeWhile, List.dropWhile, hc, h1, h2]

theorem expand_ref (result : Name) (g : Nat) (caps : Caps) (i : Nat) (hi : i ≤ g) :
    expandWith result g caps ('\\' :: strDec i) = .ok (if i = 0 then result else caps (i - 1)) := by
  obtain ⟨h1, h2⟩ := strDec_takeWhile i
  rw [expandWith, if_pos rfl]
  dsimp only
  rw [h1, h2, if_neg (strDec_ne_nil i), toInt_strDec, if_pos hi]
  split
  · simp [expandWith, bind, Except.bind, pure, Except.pure]
  · simp [expandWith, bind, Except.bind, pure, Except.pure]

/-- If no group is repeated, then after a successful match the expansion of `\0` is the name, and those of
`\1`, `\2`, ... are the parts that the groups stand for when the expression splits the name, whatever has
been matched before. -/
theorem C55_capture (search : List Char → List Char → Bool) (start stop : Bool) (p : Pat) (hp : p.Ok)
    (hg : p.Single) (hne : start = true ∨ p ≠ .nil) :
    ∃ t, compile search (exprText start stop p) = .ok t ∧
      ∀ name s s', t.run name s = (true, s') →
        t.expand s' ['\\', '0'] = .ok name ∧
        ∃ a b c cap, name = a ++ b ++ c ∧ (start = true → a = []) ∧ (stop = true → c = []) ∧
          p.Split search 0 b cap ∧
          ∀ i, i < p.count → t.expand s' ('\\' :: strDec (i + 1)) = .ok (cap i) := by
  have hsingle : (patOf stop p).Single := by
    unfold patOf
    split
    · exact hg
    · exact append_single p _ hg trivial
  have hcount : (patOf stop p).count = p.count := by
    unfold patOf
    split
    · rfl
    · rw [append_count]; rfl
  have hsplit : ∀ w cap, (patOf stop p).Split search 0 w cap → ∃ b c, w = b ++ c ∧ (stop = true → c = []) ∧
      p.Split search 0 b cap := by
    intro w cap hw
    unfold patOf at hw
    split at hw
    · exact ⟨w, [], by simp, fun _ => rfl, hw⟩
    · rename_i hs
      obtain ⟨u, v, e, hu, _⟩ := append_split p _ 0 w hw
      exact ⟨u, v, e, fun h => absurd h hs, hu⟩
  have hsecond : ∀ m n, (if start = true then none else some (toRx search (anyPat (patOf stop p)) 0)) =
      some (m, n) → start = false ∧ m = (toRx search (anyPat (patOf stop p)) 0).1 ∧ n = p.count := by
    intro m n hm
    cases start with
    | true => cases hm
    | false =>
      have hm' : some (toRx search (anyPat (patOf stop p)) 0) = some (m, n) := hm
      rw [Option.some.injEq] at hm'
      refine ⟨rfl, by rw [hm'], ?_⟩
      have := toRx_count search (anyPat (patOf stop p)) 0
      rw [hm'] at this
      have h2 : (anyPat (patOf stop p)).count = (patOf stop p).count := rfl
      dsimp only at this
      rw [this, h2, hcount]
      omega
  refine ⟨_, compile_text search start stop p hp hne, ?_⟩
  intro name s s' h
  have hcap := top_capture _ name s s'
    ⟨toRx_plain search _ 0 hsingle, by rw [toRx_groups]; exact List.nodup_range' ..⟩ (by
      intro m n hm
      obtain ⟨_, rfl, _⟩ := hsecond m n hm
      exact ⟨toRx_plain search (anyPat (patOf stop p)) 0 hsingle,
        by rw [toRx_groups]; exact List.nodup_range' ..⟩) h
  obtain ⟨hres, hcap⟩ := hcap
  have e0 : ['\\', '0'] = '\\' :: strDec 0 := by simp [strDec]
  rcases hcap with ⟨hu, hc⟩ | ⟨hu, m, n, hm, hc⟩
  · have hexp : ∀ i, i ≤ p.count → Top.expand ⟨(toRx search (patOf stop p) 0).1,
        (toRx search (patOf stop p) 0).2,
        if start then none else some (toRx search (anyPat (patOf stop p)) 0)⟩ s' ('\\' :: strDec i) =
        .ok (if i = 0 then s'.result else s'.caps1 (i - 1)) := by
      intro i hi
      unfold Top.expand
      rw [hu]
      simp only [Bool.false_eq_true, if_false]
      exact expand_ref _ _ _ i (by rw [toRx_count, hcount]; omega)
    rw [e0, hexp 0 (Nat.zero_le _), if_pos rfl, hres]
    refine ⟨rfl, ?_⟩
    obtain ⟨b, c, e, hst, hb⟩ := hsplit _ _ (toRx_split search _ 0 _ _ hsingle hc)
    refine ⟨[], b, c, s'.caps1, by simpa using e, fun _ => rfl, hst, hb, ?_⟩
    intro i hi
    rw [hexp (i + 1) hi]
    simp
  · obtain ⟨hst0, rfl, rfl⟩ := hsecond m n hm
    have hexp : ∀ i, i ≤ p.count → Top.expand ⟨(toRx search (patOf stop p) 0).1,
        (toRx search (patOf stop p) 0).2,
        if start then none else some (toRx search (anyPat (patOf stop p)) 0)⟩ s' ('\\' :: strDec i) =
        .ok (if i = 0 then s'.result else s'.caps2 (i - 1)) := by
      intro i hi
      unfold Top.expand
      rw [hu, if_pos rfl]
      have hm' : ((if start = true then none else some (toRx search (anyPat (patOf stop p)) 0)) :
          Option (Rx × Nat)) = _ := hm
      dsimp only
      rw [hm']
      exact expand_ref _ _ _ i hi
    rw [e0, hexp 0 (Nat.zero_le _), if_pos rfl, hres]
    refine ⟨rfl, ?_⟩
    have hc2 := toRx_split search (anyPat (patOf stop p)) 0 _ _ hsingle hc
    obtain ⟨a, v, e, hv⟩ := split_cons hc2
    obtain ⟨b, c, e2, hst, hb⟩ := hsplit _ _ hv
    subst e2
    refine ⟨a, b, c, s'.caps2, by simpa using e, (by rw [hst0]; intro h; cases h), hst, hb, ?_⟩
    intro i hi
    rw [hexp (i + 1) hi]
    simp

theorem expandItem_skip : ∀ (x : List Char) (d : Nat) (cs : List Char), (∀ c ∈ x, c ≠ '<' ∧ c ≠ '>') →
    cs ≠ [] → expandItem (d + 1) (x ++ cs) = (match expandItem (d + 1) cs with
      | .ok (y, rest) => .ok (x ++ y, rest)
      | .error e => .error e)
  | [], d, cs, _, _ => by
    rw [List.nil_append]
    cases expandItem (d + 1) cs with
    | error e => rfl
    | ok p => rfl
  | c :: x, d, cs, h, hne => by
    have hc := h c (List.mem_cons_self ..)
    rw [List.cons_append, expandItem, if_neg (by simp [hne])]
    dsimp only
    rw [if_neg hc.1, if_neg hc.2, expandItem_skip x d cs (fun c h' => h c (List.mem_cons_of_mem _ h')) hne]
    cases expandItem (d + 1) cs with
    | error e => rfl
    | ok p => rfl

theorem item_text_ne (i : Item) : i.text ≠ [] := by cases i <;> simp [Item.text]

theorem items_head (is : List Item) : ∀ c cs, is.flatMap Item.text = c :: cs → reDigit c = false := by
  intro c cs h
  cases is with
  | nil => cases h
  | cons i is =>
    cases i with
    | ref i => simp [Item.text] at h; rw [← h.1]; decide
    | comp x => simp [Item.text] at h; rw [← h.1]; decide

theorem digits_then (n : Nat) (cs : List Char) (h : ∀ c r, cs = c :: r → reDigit c = false) :
    (strDec n ++ cs).takeWhile reDigit = strDec n ∧ (strDec n ++ cs).dropWhile reDigit = cs := by
  cases cs with
  | nil => rw [List.append_nil]; exact strDec_takeWhile n
  | cons c r => exact takeWhile_digits n c r (h c r rfl)

/-- An expansion is the expansions of its items one after the other, if it does not end with a
component. -/
theorem C55_expand (t : Top) (s : TopState) (val : Nat → List Component) (is : List Item)
    (hcomp : ∀ x, Item.comp x ∈ is → ∀ c ∈ x, c ≠ '<' ∧ c ≠ '>')
    (href : ∀ i, Item.ref i ∈ is → t.expand s ('\\' :: strDec i) = .ok (val i))
    (hlast : ∀ i, is.getLast? = some i → i.isRef = true) :
    t.expand s (is.flatMap Item.text) = .ok (is.flatMap (Item.value val)) := by
  have key : ∀ (result : Name) (g : Nat) (caps : Caps) (is : List Item),
      (∀ x, Item.comp x ∈ is → ∀ c ∈ x, c ≠ '<' ∧ c ≠ '>') →
      (∀ i, Item.ref i ∈ is → expandWith result g caps ('\\' :: strDec i) = .ok (val i)) →
      (∀ i, is.getLast? = some i → i.isRef = true) →
      expandWith result g caps (is.flatMap Item.text) = .ok (is.flatMap (Item.value val)) := by
    intro result g caps is
    induction is with
    | nil => intro _ _ _; simp [expandWith]
    | cons i is ih =>
      intro h1 h2 h3
      have hl : ∀ j, is.getLast? = some j → j.isRef = true := by
        intro j hj
        refine h3 j ?_
        rw [List.getLast?_cons, hj]
        rfl
      have ih := ih (fun x hx => h1 x (List.mem_cons_of_mem _ hx))
        (fun i hi => h2 i (List.mem_cons_of_mem _ hi)) hl
      cases i with
      | ref i =>
        obtain ⟨d1, d2⟩ := digits_then i (is.flatMap Item.text) (fun c r h => items_head is c r h)
        obtain ⟨d3, d4⟩ := strDec_takeWhile i
        have hv := h2 i (List.mem_cons_self ..)
        rw [expandWith, if_pos rfl] at hv
        dsimp only at hv
        rw [d3, d4, if_neg (strDec_ne_nil i), toInt_strDec] at hv
        simp only [List.flatMap_cons, Item.text, List.cons_append, Item.value]
        rw [expandWith, if_pos rfl]
        dsimp only
        rw [d1, d2, if_neg (strDec_ne_nil i), toInt_strDec, ih]
        split
        · rename_i h0
          rw [if_pos h0] at hv
          simp [expandWith, bind, Except.bind, pure, Except.pure] at hv ⊢
          rw [hv]
        · rename_i h0
          rw [if_neg h0] at hv
          split
          · rename_i hg
            rw [if_pos hg] at hv
            simp [expandWith, bind, Except.bind, pure, Except.pure] at hv ⊢
            rw [hv]
          · rename_i hg
            rw [if_neg hg] at hv
            cases hv
      | comp x =>
        have hne : is.flatMap Item.text ≠ [] := by
          cases is with
          | nil => have := h3 _ rfl; cases this
          | cons j is => simp [item_text_ne]
        simp only [List.flatMap_cons, Item.text, List.cons_append, List.append_assoc, Item.value]
        rw [expandWith, if_neg (by decide), if_pos rfl, if_neg (by simp)]
        have he : expandItem 1 (x ++ ('>' :: is.flatMap Item.text)) =
            .ok (x ++ ['>'], is.flatMap Item.text) := by
          rw [expandItem_skip x 0 _ (h1 x (List.mem_cons_self ..)) (by simp), expandItem,
            if_neg hne]
          simp [expandItem, bind, Except.bind, pure, Except.pure]
        split
        · rename_i e h
          have h' : expandItem 1 (x ++ ('>' :: is.flatMap Item.text)) = .error e := h
          rw [he] at h'
          cases h'
        · rename_i y rest h
          have h' : expandItem 1 (x ++ ('>' :: is.flatMap Item.text)) = .ok (y, rest) := h
          rw [he] at h'
          cases h'
          rw [ih]
          simp [bind, Except.bind, pure, Except.pure, charBytes]
  unfold Top.expand at href ⊢
  split
  · rename_i hs
    simp only [hs, if_true] at href
    exact key _ _ _ is hcomp href hlast
  · rename_i hs
    simp only [hs] at href
    exact key _ _ _ is hcomp href hlast

/-! ### Concrete cases -/

/-- Matching names one after the other with one matcher: whether each matched, and the expansion. -/
def matchAll (search : List Char → List Char → Bool) (expr expand : String) (names : List Name) :
    Except Err (List (Option (Except Err Name))) := do
  let t ← compile search expr.toList
  let rec go (s : TopState) : List Name → List (Option (Except Err Name))
    | [] => []
    | n :: ns =>
      match t.run n s with
      | (true, s) => some (t.expand s expand.toList) :: go s ns
      | (false, s) => none :: go s ns
  return go {} names

/-- A component given by ASCII text. -/
def word (s : String) : Component := Component.generic (s.toList.map fun c => UInt8.ofNat c.toNat)

def words (l : List String) : Name := l.map word

/-- `^(<>*)<KEY>(<>)$`. -/
def exPat : Pat := .group (.comp [] .star .nil) .one (.comp "KEY".toList .one
  (.group (.comp [] .one .nil) .one .nil))

example : exprText true true exPat = "^(<>*)<KEY>(<>)$".toList ∧ exPat.Ok ∧ exPat.Single ∧
    exPat.Solid literalSearch ∧ ∀ t, literalSearch ".*".toList t = true := by
  refine ⟨rfl, ⟨⟨?_, ?_, trivial⟩, ?_, ?_, ?_, ⟨?_, ?_, trivial⟩, ?_, trivial⟩, ⟨rfl, trivial, rfl, trivial, trivial⟩,
    ⟨trivial, ⟨trivial, trivial, .inl rfl⟩, .inl rfl⟩, ?_⟩
  · intro c hc; cases hc
  · exact ⟨Nat.zero_le _, Nat.le_refl _⟩
  · exact ⟨Nat.le_refl _, by simp [Rep.bounds]⟩
  · unfold NoBrackets; decide
  · exact ⟨Nat.le_refl _, by simp [Rep.bounds]⟩
  · intro c hc; cases hc
  · exact ⟨Nat.le_refl _, by simp [Rep.bounds]⟩
  · exact ⟨Nat.le_refl _, by simp [Rep.bounds]⟩
  · intro t; simp [literalSearch]

/-- The expression is a text whose characters are all ASCII, so a test on it decides. -/
example : Denotes literalSearch true true exPat (words ["a", "b", "KEY", "k1"]) := by
  refine ⟨[], words ["a", "b", "KEY", "k1"], [], by simp, fun _ => rfl, fun _ => rfl, ?_⟩
  refine ⟨words ["a", "b"], words ["KEY", "k1"], 1, rfl, Nat.le_refl _, Nat.le_refl _, ?_, ?_⟩
  · exact ⟨words ["a", "b"], [], by simp, ⟨words ["a", "b"], [], by simp, Nat.zero_le _, by decide,
      fun c _ => .inl rfl, rfl⟩, rfl⟩
  · refine ⟨words ["KEY"], words ["k1"], rfl, Nat.le_refl _, Nat.le_refl _, ?_, ?_⟩
    · intro c hc
      right
      have : c = word "KEY" := by simpa [words] using hc
      subst this
      decide
    · exact ⟨words ["k1"], [], 1, rfl, Nat.le_refl _, Nat.le_refl _,
        ⟨words ["k1"], [], rfl, ⟨words ["k1"], [], rfl, Nat.le_refl _, Nat.le_refl _,
          fun c _ => .inl rfl, rfl⟩, rfl⟩, rfl⟩

/-- Without the condition that no group is repeated, the claim is false of the code: a group that is not
tried keeps what it stood for in an earlier match, and one that is tried in vain keeps what it stood
for in the attempt. -/
theorem C55_stale :
    matchAll literalSearch "^<b>(<a>)?$" "\\1" [words ["b"]] = .ok [some (.ok [])] ∧
    matchAll literalSearch "^<b>(<a>)?$" "\\1" [words ["b", "a"], words ["b"]] =
      .ok [some (.ok (words ["a"])), some (.ok (words ["a"]))] ∧
    matchAll literalSearch "^(<a>)?<a>$" "\\1" [words ["a"]] = .ok [some (.ok (words ["a"]))] := by
  refine ⟨?_, ?_, ?_⟩ <;> decide +kernel

/-- Without the condition on repeated groups that can stand for nothing, a name that the expression
denotes is not matched. -/
theorem C55_nullable :
    matchAll literalSearch "^(<a>*)+$" "\\0" [[]] = .ok [none] ∧
    Denotes literalSearch true true (.group (.comp "a".toList .star .nil) .plus .nil) [] := by
  refine ⟨by decide +kernel, [], [], [], rfl, fun _ => rfl, fun _ => rfl, [], [], 1, rfl, Nat.le_refl _, ?_, ?_, rfl⟩
  · simp [Rep.bounds]
  · exact ⟨[], [], rfl, ⟨[], [], rfl, Nat.zero_le _, Nat.zero_le _, (fun c hc => by cases hc), rfl⟩, rfl⟩

/-- A component expression is searched in a component: `<KEY>` also matches the component `MONKEY`. -/
theorem C55_search :
    matchAll literalSearch "^(<>*)<KEY><>$" "\\1" [words ["a", "MONKEY", "k"], words ["a", "KE", "k"]] =
      .ok [some (.ok (words ["a"])), none] := by
  decide +kernel

/-- An expansion that ends with a component raises. -/
theorem C55_expand_end :
    matchAll literalSearch "^<a>$" "\\0<b>" [words ["a"]] = .ok [some (.error .value)] ∧
    matchAll literalSearch "^<a>$" "<b>\\0" [words ["a"]] = .ok [some (.ok (words ["b", "a"]))] := by
  refine ⟨?_, ?_⟩ <;> decide +kernel

end PyNDN.Regex
