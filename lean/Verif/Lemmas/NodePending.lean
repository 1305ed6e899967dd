import Verif.Lemmas.NodeTimers
/-
What becomes of the entry objects: they stay pending until there is a callback, a removal or a timeout; and
a pending Interest with a timeout has a timer.
-/
namespace PyNDN
namespace Node

/-- The parts of an entry object that do not change. -/
def fixed (n : Node) : List (ExpressArgs × Int) := n.entries.map (fun e => (e.args, e.added))

theorem fixed_get (n : Node) (r : Nat) : n.fixed[r]? = (n.entries[r]?).map (fun e => (e.args, e.added)) := by
  unfold fixed; rw [List.getElem?_map]

theorem markAll_fixed (es : List PitEntry) (l : List Nat) : (markAll es l).map (fun e => (e.args, e.added)) = es.map (fun e => (e.args, e.added)) := by
  apply List.ext_getElem?
  intro i
  rw [List.getElem?_map, List.getElem?_map, markAll_get]
  cases es[i]? with
  | none => rfl
  | some e => simp only [Option.map_some]; split <;> rfl

/-- Where an entry object that is not pending any more can be. -/
def Left (n' : Node) (r : Nat) (a : ExpressArgs) : Prop :=
  r ∈ frameRefs n'.stack ∨ r ∈ cbRefs n'.trace ∨ a.hasOnTimeout = false ∨ Ev.removeCalled a.id ∈ n'.trace ∨ Ev.matchRaised ∈ n'.trace

/-- What a primitive change does to the entry objects. -/
inductive EShape (C : NodeConfig) (n n' : Node) : Prop
  /-- No new entry object. -/
  | old (hf : n'.fixed = n.fixed) (hp : n'.pit.Sublist n.pit) (hl : ∀ r a, n.args[r]? = some a → r ∈ n.pit → r ∈ n'.pit ∨ Left n' r a)
      (hfr : ∀ r, r ∈ frameRefs n.stack → r ∈ frameRefs n'.stack ∨ r ∈ cbRefs n'.trace)
      (hh : ∀ i o, Ev.helper i o ∈ n'.trace → Ev.helper i o ∈ n.trace ∨ o = .removed)
  | new (a : ExpressArgs) (now : Int) (hf : n'.fixed = n.fixed ++ [(a, now)]) (hp : n'.pit = n.pit ++ [n.entries.length]) (hfr : frameRefs n'.stack = frameRefs n.stack)
      (hh : ∀ i o, Ev.helper i o ∈ n'.trace → Ev.helper i o ∈ n.trace ∨ i = a.id)
      (ht : (a.hasOnTimeout = true ∨ a.interest.lifetime ≠ none) →
        ∃ d : DelayedEntry, Scheduled C n n' d ∧ d.call = .timeout n.entries.length ∧ d.time = now + ((a.interest.lifetime.getD 4000 : Nat) : Int))

theorem helper_reg {evs : List Ev} (h : ∀ x ∈ evs, RegEv x) (i : Nat) (o : Outcome) : Ev.helper i o ∉ evs := by
  intro hm
  rcases h _ hm with ⟨r, hr⟩ | ⟨r, hr⟩ | ⟨r, hr⟩ <;> cases hr

theorem extractRev_keep (p : Nat → Except Err Bool) (l : List Nat) (r : Nat) (h : r ∈ l) : r ∈ (extractRev p l).1 ∨ r ∈ (extractRev p l).2.1 := by
  have := extractRev_count p l r
  have := List.count_pos_iff.mpr h
  by_cases h1 : r ∈ (extractRev p l).1
  · exact .inl h1
  · refine .inr (List.count_pos_iff.mp ?_)
    have := List.count_eq_zero.mpr h1
    omega

theorem extractRev_sublist (p : Nat → Except Err Bool) (l : List Nat) : (extractRev p l).1.Sublist l := by
  induction l with
  | nil => exact List.Sublist.refl _
  | cons x l ih =>
    unfold extractRev
    split
    · exact List.Sublist.refl _
    · generalize extractRev p l = y at ih
      obtain ⟨k, t, q⟩ := y
      dsimp only at ih ⊢
      split
      · exact ih.cons _
      · exact ih.cons_cons _

theorem prim_entries {C : NodeConfig} {n n' : Node} (hi : Inv C n) (h : Prim C n n') : EShape C n n' := by
  have same : ∀ m : Node, m.entries = n.entries → m.pit = n.pit → frameRefs m.stack = frameRefs n.stack → (∀ i o, Ev.helper i o ∈ m.trace → Ev.helper i o ∈ n.trace) → EShape C n m := by
    intro m h1 h2 h3 h4
    refine .old (by unfold fixed; rw [h1]) (by rw [h2]; exact List.Sublist.refl _) (fun r a _ hr => .inl (h2 ▸ hr)) (fun r hr => .inl (h3 ▸ hr)) (fun i o ho => .inl (h4 i o ho))
  have snoc : ∀ (t : List Ev) (e : Ev), (∀ i o, e ≠ .helper i o) → ∀ i o, Ev.helper i o ∈ t ++ [e] → Ev.helper i o ∈ t := by
    intro t e he i o hm
    rcases List.mem_append.mp hm with hm | hm
    · exact hm
    · exact absurd (List.mem_singleton.mp hm).symm (he i o)
  have run : ∀ (m : Node) (e : DelayedEntry) (now : Int), m.entries = n.entries → m.pit = n.pit → m.stack = n.stack → m.trace = n.trace → EShape C n (m.runDelayed e now) := by
    intro m e now h1 h2 h3 h4
    rcases runDelayed_form m e now with ⟨_, e'⟩ | ⟨r, _, _, e'⟩ | ⟨r, x, _, hx, hr, hp, ⟨ho, e'⟩ | ⟨ho, evs, hevs, e'⟩⟩
    · rw [e']; refine same _ h1 h2 (by show frameRefs m.stack = _; rw [h3]) ?_
      dsimp only; rw [h4]; exact snoc _ _ (by simp)
    · rw [e']; refine same _ h1 h2 (by show frameRefs m.stack = _; rw [h3]) ?_
      dsimp only; rw [h4]; exact snoc _ _ (by simp)
    · rw [e']
      refine .old ?_ ?_ ?_ ?_ ?_
      · show (markAll m.entries [r]).map _ = _; rw [markAll_fixed, h1]; rfl
      · show (m.pit.erase r).Sublist n.pit; rw [h2]; exact List.erase_sublist
      · intro r' a ha hr'
        by_cases hrr : r' = r
        · subst hrr
          refine .inr (.inr (.inr (.inl ?_)))
          rw [args_get, ← h1, hx] at ha
          cases ha
          exact ho
        · left; show r' ∈ m.pit.erase r; rw [h2]; exact (List.mem_erase_of_ne hrr).mpr hr'
      · intro r' hr'; left; show r' ∈ frameRefs m.stack; rw [h3]; exact hr'
      · intro i o hm
        dsimp only at hm; rw [h4] at hm
        exact .inl (snoc _ _ (by simp) i o hm)
    · rw [e']
      refine .old ?_ ?_ ?_ ?_ ?_
      · show (markAll m.entries [r]).map _ = _; rw [markAll_fixed, h1]; rfl
      · show (m.pit.erase r).Sublist n.pit; rw [h2]; exact List.erase_sublist
      · intro r' a ha hr'
        by_cases hrr : r' = r
        · subst hrr
          refine .inr (.inr (.inl ?_))
          dsimp only
          rw [cbRefs_append, cbRefs_append]
          simp [cbRefs]
        · left; show r' ∈ m.pit.erase r; rw [h2]; exact (List.mem_erase_of_ne hrr).mpr hr'
      · intro r' hr'; left; show r' ∈ frameRefs m.stack; rw [h3]; exact hr'
      · intro i o hm
        dsimp only at hm; rw [h4] at hm
        rcases List.mem_append.mp hm with hm | hm
        · exact .inl (snoc _ _ (by simp) i o (snoc _ _ (by simp) i o hm))
        · exact absurd hm (helper_reg hevs i o)
  have helper : ∀ (m : Node) (a : ExpressArgs) (o : Outcome) (evs : List Ev), m.entries = n.entries → m.pit = n.pit → m.stack = n.stack → m.delayed = n.delayed →
      m.loopTimers = n.loopTimers → m.now = n.now → m.trace = n.trace ++ evs → (∀ i o, Ev.helper i o ∉ evs) → EShape C n (m.helperCore C a o) := by
    intro m a o evs h1 h2 h3 h4 h5 h6 h7 h8
    rcases helperCore_form C m a o with ⟨ho, e⟩ | ⟨ho, sq, dl, lt, evs', e, hevs⟩
    · rw [e]
      refine .old (by unfold fixed; dsimp only; rw [h1]) (by dsimp only; rw [h2]; exact List.Sublist.refl _) (fun r a _ hr => .inl (h2 ▸ hr)) (fun r hr => .inl (h3 ▸ hr)) ?_
      intro i o' hm
      dsimp only at hm
      rcases List.mem_append.mp hm with hm | hm
      · rw [h7] at hm
        rcases List.mem_append.mp hm with hm | hm
        · exact .inl hm
        · exact absurd hm (h8 i o')
      · cases List.mem_singleton.mp hm
        exact .inr ho
    · refine .new a n.now ?_ ?_ ?_ ?_ ?_
      · rw [e]; unfold fixed; dsimp only; rw [h1, List.map_append, h6]; rfl
      · rw [e]; dsimp only; rw [h2, h1]
      · rw [e]; dsimp only; rw [h3]
      · rw [e]
        intro i o' hm
        dsimp only at hm
        rcases List.mem_append.mp hm with hm | hm
        · rcases List.mem_append.mp hm with hm | hm
          · rw [h7] at hm
            rcases List.mem_append.mp hm with hm | hm
            · exact .inl hm
            · exact absurd hm (h8 i o')
          · rcases hevs with rfl | ⟨k, t, rfl⟩ <;> simp at hm
        · cases List.mem_singleton.mp hm
          exact .inr rfl
      · intro ht
        rcases helperCore_timers C m a o with ⟨_, _, _, _, x⟩ | ⟨d, hd, _, _, x, _⟩
        · rcases x with x | x
          · exact absurd x ho
          · exact absurd ht x
        · refine ⟨d, ?_, ?_, ?_⟩
          · unfold Scheduled at *
            rw [h4, h5] at x
            exact x
          · rw [hd, h1]
          · rw [hd, h6]
  have done : ∀ {f : Frame} {s : List Frame}, n.stack = f :: s → Frame.done f = true → frameRefs s = frameRefs n.stack := by
    intro f s hs hd
    rw [hs, frameRefs_done hd]
  have take : ∀ (m m' : Node) (p : Nat → Except Err Bool) (taken : List Nat) (b : Bool), n.extract p = (m, taken, b) → m'.entries = m.entries → m'.pit = m.pit → m'.trace = m.trace →
      (∀ r, r ∈ frameRefs n.stack → r ∈ frameRefs m'.stack) → (∀ r ∈ taken, r ∈ frameRefs m'.stack ∨ Ev.matchRaised ∈ n.trace) → EShape C n m' := by
    intro m m' p taken b hx h1 h2 h3 h4 h5
    obtain ⟨e1, e2⟩ := extract_eq hx
    refine .old ?_ ?_ ?_ (fun r hr => .inl (h4 r hr)) ?_
    · unfold fixed; rw [h1, e2]; exact markAll_fixed _ _
    · rw [h2, e2]
      have := (extractRev_sublist p n.pit.reverse).reverse
      rw [List.reverse_reverse] at this
      exact this
    · intro r a _ hr
      rcases extractRev_keep p n.pit.reverse r (List.mem_reverse.mpr hr) with h | h
      · left; rw [h2, e2]; exact List.mem_reverse.mpr h
      · rw [e1] at h
        rcases h5 r h with h | h
        · exact .inr (.inl h)
        · refine .inr (.inr (.inr (.inr (.inr ?_))))
          rw [h3, e2]
          exact h
    · intro i o hm
      rw [h3, e2] at hm
      exact .inl hm
  cases h with
  | misc => exact same _ rfl rfl rfl (fun i o h => h)
  | push f ho hf =>
    refine same _ rfl rfl ?_ (fun i o h => h)
    rcases hf with ⟨c, rfl⟩ | ⟨t, rfl⟩ | ⟨rfl, _⟩ | ⟨rfl, _⟩ <;> rfl
  | drop f s h hd hm => exact same _ rfl rfl (done h hd) (fun i o h => h)
  | setComplete s h => exact same _ rfl rfl (done h rfl) (fun i o h => h)
  | callData d r rest s h =>
    rcases callOnData_form { n with stack := .deliver d rest :: s } r d with ⟨hn, e⟩ | ⟨x, hx, k, fs, ps, rr, evs, st, e, hevs, hst, _⟩
    · exfalso
      have := hi.ref.bound r (by
        unfold refCount
        have := List.count_pos_iff.mpr (show r ∈ frameRefs n.stack by rw [h]; exact List.mem_cons_self ..)
        omega)
      have hn' : n.entries[r]? = none := hn
      rw [List.getElem?_eq_none_iff] at hn'
      omega
    · rw [e]
      refine .old rfl (List.Sublist.refl _) (fun r a _ hr => .inl hr) ?_ ?_
      · intro r' hr'
        rw [h] at hr'
        have : r' = r ∨ r' ∈ frameRefs (.deliver d rest :: s) := by
          rcases List.mem_append.mp hr' with hr' | hr'
          · rcases List.mem_cons.mp hr' with rfl | hr'
            · exact .inl rfl
            · exact .inr (List.mem_append_left _ hr')
          · exact .inr (List.mem_append_right _ hr')
        rcases this with rfl | hr'
        · right
          dsimp only
          rw [cbRefs_append, cbRefs_append]
          simp [cbRefs]
        · left
          rcases hst with hst | hst <;> (dsimp only; rw [hst]; exact hr')
      · intro i o hm
        dsimp only at hm
        rcases List.mem_append.mp hm with hm | hm
        · exact .inl (snoc _ _ (by simp) i o hm)
        · exact absurd hm (helper_reg hevs i o)
  | callNack k r rest s h =>
    refine .old rfl (List.Sublist.refl _) (fun r a _ hr => .inl hr) ?_ (fun i o hm => .inl (snoc _ _ (by simp) i o hm))
    intro r' hr'
    rw [h] at hr'
    rcases List.mem_append.mp hr' with hr' | hr'
    · rcases List.mem_cons.mp hr' with rfl | hr'
      · right
        show r' ∈ cbRefs (n.trace ++ [_])
        rw [cbRefs_append]; simp [cbRefs]
      · exact .inl (List.mem_append_left _ hr')
    · exact .inl (List.mem_append_right _ hr')
  | callFilter i f rest s h =>
    refine same _ rfl rfl ?_ (snoc _ _ (by simp))
    show frameRefs s = _; rw [h]; rfl
  | takeData d m taken ha hx =>
    refine take m _ _ taken false hx rfl rfl rfl (fun r hr => ?_) (fun r hr => .inl (List.mem_append_left _ hr))
    refine List.mem_append_right _ ?_
    rw [extract_stack hx]; exact hr
  | takeNack k w m taken ha hx =>
    refine take m _ _ taken false hx rfl rfl rfl (fun r hr => ?_) (fun r hr => .inl (List.mem_append_left _ hr))
    refine List.mem_append_right _ ?_
    rw [extract_stack hx]; exact hr
  | takeLost p m taken hx ht =>
    exact take n' n' p taken true hx rfl rfl rfl (fun r hr => by rw [extract_stack hx]; exact hr) (fun r hr => .inr ht)
  | timer now e es s h hd hle => exact run { n with delayed := es } e now rfl rfl rfl rfl
  | fire k e ha hk hle => exact run { n with loopTimers := n.loopTimers.eraseIdx k } e n.now rfl rfl rfl rfl
  | alloc => exact same _ rfl rfl rfl (fun i o h => h)
  | exprDirect a o htk hst ho => exact helper (n.emit (.called a.id)) a o [.called a.id] rfl rfl rfl rfl rfl rfl rfl (by simp)
  | exprQueue a c htk hst ha => exact same _ rfl rfl rfl (snoc _ _ (by simp))
  | exprFail a htk ha => exact same _ rfl rfl rfl (snoc _ _ (by simp))
  | runQueue a o s h hq ho => exact helper { n with next := n.next + 1 } a o [] rfl rfl rfl rfl rfl rfl (by simp) (by simp)
  | queueDone s h hq => exact same _ rfl rfl (done h rfl) (fun i o h => h)
  | removePending id ht =>
    rw [removePending_eq]
    refine .old (markAll_fixed _ _) List.filter_sublist ?_ (fun r hr => .inl hr) (fun i o h => .inl h)
    intro r a ha hr
    by_cases hid : n.idOf r = id
    · refine .inr (.inr (.inr (.inr (.inl ?_))))
      have : n.idOf r = a.id := by rw [idOf_args, ha]; rfl
      rw [← this, hid]
      exact ht
    · exact .inl (List.mem_filter.mpr ⟨hr, by simpa using hid⟩)
  | removeRegistered id => rw [removeRegistered_eq]; exact same _ rfl rfl rfl (fun i o h => h)
  | setFilter id p r htk => exact same _ rfl rfl rfl (snoc _ _ (by simp))
  | unset id => exact same _ rfl rfl rfl (fun i o h => h)
  | dispatch i fs hm ho => exact same _ rfl rfl rfl (fun i o h => h)
  | later d =>
    obtain ⟨dl, lt, e, hc⟩ := callLater_form C n d .app
    rw [e]
    exact same _ rfl rfl rfl (snoc _ _ (by simp))
  | note e he =>
    refine same _ rfl rfl rfl (snoc _ _ ?_)
    rcases he with ⟨w, rfl, _⟩ | ⟨i, rfl⟩ | rfl | rfl | ⟨j, rfl⟩ <;> simp

/-- A pending Interest that can time out has a timer; an Interest with a callback for the timeout that is not pending was
called, or is about to be, or was removed. -/
structure PendInv (C : NodeConfig) (n : Node) : Prop where
  timer : ∀ r ∈ n.pit, ∀ a added, n.fixed[r]? = some (a, added) → (a.hasOnTimeout = true ∨ a.interest.lifetime ≠ none) →
    ∃ d : DelayedEntry, (d ∈ n.delayed ∨ d ∈ n.loopTimers) ∧ d.call = .timeout r ∧ d.time = added + ((a.interest.lifetime.getD 4000 : Nat) : Int)
  left : ∀ r a added, n.fixed[r]? = some (a, added) → r ∈ n.pit ∨ Left n r a
  done : ∀ i o, Ev.helper i o ∈ n.trace → o = .removed ∨ ∃ x ∈ n.fixed, x.1.id = i

theorem prim_trace {C : NodeConfig} {n n' : Node} (h : Prim C n n') : ∃ evs, n'.trace = n.trace ++ evs := by
  cases prim_shape h with
  | same _ evs ht _ => exact ⟨evs, ht⟩
  | push _ _ _ evs ht _ => exact ⟨evs, ht⟩
  | pop _ _ _ _ _ ht => exact ⟨[], by rw [ht, List.append_nil]⟩
  | adv _ _ _ evs _ _ _ ht => exact ⟨evs, ht⟩

theorem mem_eraseIdx_of_ne {l : List DelayedEntry} {k : Nat} {e d : DelayedEntry} (hk : l[k]? = some e) (hd : d ∈ l) (hne : d ≠ e) : d ∈ l.eraseIdx k := by
  induction l generalizing k with
  | nil => cases hd
  | cons x l ih =>
    cases k with
    | zero =>
      simp only [List.getElem?_cons_zero, Option.some.injEq] at hk
      subst hk
      exact (List.mem_cons.mp hd).resolve_left hne
    | succ k =>
      simp only [List.getElem?_cons_succ] at hk
      rcases List.mem_cons.mp hd with rfl | hd
      · exact List.mem_cons_self ..
      · exact List.mem_cons_of_mem _ (ih hk hd)

theorem mem_scheduled {C : NodeConfig} {n n' : Node} {d e : DelayedEntry} (h : Scheduled C n n' e) (hd : d = e ∨ d ∈ n.delayed ∨ d ∈ n.loopTimers) :
    d ∈ n'.delayed ∨ d ∈ n'.loopTimers := by
  rcases h with ⟨_, c2, c3⟩ | ⟨_, c2, c3⟩
  · rw [c2, c3]
    rcases hd with rfl | hd | hd
    · exact .inr (List.mem_append_right _ (List.mem_singleton.mpr rfl))
    · exact .inl hd
    · exact .inr (List.mem_append_left _ hd)
  · rw [c2, c3]
    rcases hd with rfl | hd | hd
    · exact .inl ((insert_perm d n.delayed).mem_iff.mpr (List.mem_cons_self ..))
    · exact .inl ((insert_perm e n.delayed).mem_iff.mpr (List.mem_cons_of_mem _ hd))
    · exact .inr hd

/-- The timer of a pending Interest stays as long as it is pending. -/
theorem timer_keep {C : NodeConfig} {n n' : Node} (hi : Inv C n) (h : Prim C n n') {r : Nat} {d : DelayedEntry} (hd : d ∈ n.delayed ∨ d ∈ n.loopTimers)
    (hc : d.call = .timeout r) (hr : r ∈ n.pit) : (d ∈ n'.delayed ∨ d ∈ n'.loopTimers) ∨ r ∉ n'.pit := by
  have hc1 : n.pit.count r = 1 := by
    have h1 := hi.ref.once r
    unfold refCount at h1
    have := List.count_pos_iff.mpr hr
    omega
  have hlt : r < n.entries.length := hi.ref.bound r (by unfold refCount; omega)
  cases prim_timers h with
  | same h1 h2 _ _ => left; rw [h1, h2]; exact hd
  | sched e he hs ht hs' => exact .inl (mem_scheduled hs' (.inr hd))
  | ran e now hle hs ht hx hp =>
    by_cases hde : d = e
    · subst hde
      right
      rw [hp r n.entries[r] hc (List.getElem?_eq_getElem hlt) (hi.ref.live r hr _ (List.getElem?_eq_getElem hlt)) hr]
      intro hm
      have h1 := List.count_pos_iff.mpr hm
      rw [List.count_erase_self] at h1
      omega
    · left
      rcases hx with ⟨c1, c2, _⟩ | ⟨c2, k, c1, c3⟩
      · rcases hd with hd | hd
        · rw [c1] at hd
          exact .inl ((List.mem_cons.mp hd).resolve_left hde)
        · rw [c2]; exact .inr hd
      · rcases hd with hd | hd
        · rw [c2]; exact .inl hd
        · rw [c3]; exact .inr (mem_eraseIdx_of_ne c1 hd hde)

theorem pendInv_prim {C : NodeConfig} {n n' : Node} (hi : Inv C n) (h : Prim C n n') (hp : PendInv C n) : PendInv C n' := by
  obtain ⟨i1, i2, i3⟩ := hp
  obtain ⟨evs, ht⟩ := prim_trace h
  have keep : ∀ r a added, n.fixed[r]? = some (a, added) → r ∈ n.pit → r ∈ n'.pit → (a.hasOnTimeout = true ∨ a.interest.lifetime ≠ none) →
      ∃ d : DelayedEntry, (d ∈ n'.delayed ∨ d ∈ n'.loopTimers) ∧ d.call = .timeout r ∧ d.time = added + ((a.interest.lifetime.getD 4000 : Nat) : Int) := by
    intro r a added hf hr hr' hx
    obtain ⟨d, h1, h2, h3⟩ := i1 r hr a added hf hx
    rcases timer_keep hi h h1 h2 hr with h4 | h4
    · exact ⟨d, h4, h2, h3⟩
    · exact absurd hr' h4
  have left : (∀ r, r ∈ frameRefs n.stack → r ∈ frameRefs n'.stack ∨ r ∈ cbRefs n'.trace) → ∀ r a, Left n r a → Left n' r a := by
    intro hfr r a hl
    rcases hl with hl | hl | hl | hl | hl
    · rcases hfr r hl with h | h
      · exact .inl h
      · exact .inr (.inl h)
    · refine .inr (.inl ?_)
      rw [ht, cbRefs_append]
      exact List.mem_append_left _ hl
    · exact .inr (.inr (.inl hl))
    · exact .inr (.inr (.inr (.inl (by rw [ht]; exact List.mem_append_left _ hl))))
    · exact .inr (.inr (.inr (.inr (by rw [ht]; exact List.mem_append_left _ hl))))
  cases prim_entries hi h with
  | old hf hp hl hfr hh =>
    refine ⟨?_, ?_, ?_⟩
    · intro r hr a added hfx
      rw [hf] at hfx
      exact keep r a added hfx (hp.subset hr) hr
    · intro r a added hfx
      rw [hf] at hfx
      rcases i2 r a added hfx with h | h
      · refine hl r a ?_ h
        rw [fixed_get] at hfx
        rw [args_get]
        cases he : n.entries[r]? with
        | none => rw [he] at hfx; cases hfx
        | some e => rw [he] at hfx; cases hfx; rfl
      · exact .inr (left hfr r a h)
    · intro i o hm
      rw [hf]
      rcases hh i o hm with h | h
      · exact i3 i o h
      · exact .inl h
  | new a now hf hp hfr hh hs =>
    have hlen : n.fixed.length = n.entries.length := by unfold fixed; rw [List.length_map]
    have split : ∀ r b added, n'.fixed[r]? = some (b, added) → n.fixed[r]? = some (b, added) ∨ (r = n.entries.length ∧ b = a ∧ added = now) := by
      intro r b added hfx
      rw [hf, List.getElem?_append] at hfx
      split at hfx
      · exact .inl hfx
      · next hge =>
        rw [hlen] at hge hfx
        have : r - n.entries.length = 0 := by
          by_cases h0 : r - n.entries.length = 0
          · exact h0
          · rw [List.getElem?_eq_none (by simp; omega)] at hfx; cases hfx
        rw [this] at hfx
        cases hfx
        exact .inr ⟨by omega, rfl, rfl⟩
    refine ⟨?_, ?_, ?_⟩
    · intro r hr b added hfx hx
      rcases split r b added hfx with h | ⟨rfl, rfl, rfl⟩
      · have hlt : r < n.entries.length := by
          rw [← hlen]; exact (List.getElem?_eq_some_iff.mp h).1
        refine keep r b added h ?_ hr hx
        rw [hp] at hr
        rcases List.mem_append.mp hr with hr | hr
        · exact hr
        · have := List.mem_singleton.mp hr
          omega
      · obtain ⟨d, h1, h2, h3⟩ := hs hx
        exact ⟨d, mem_scheduled h1 (.inl rfl), h2, h3⟩
    · intro r b added hfx
      rcases split r b added hfx with h | ⟨rfl, rfl, rfl⟩
      · rcases i2 r b added h with h | h
        · left; rw [hp]; exact List.mem_append_left _ h
        · exact .inr (left (fun r hr => .inl (hfr ▸ hr)) r b h)
      · left; rw [hp]; exact List.mem_append_right _ (List.mem_singleton.mpr rfl)
    · intro i o hm
      rw [hf]
      rcases hh i o hm with h | h
      · rcases i3 i o h with h | ⟨x, h1, h2⟩
        · exact .inl h
        · exact .inr ⟨x, List.mem_append_left _ h1, h2⟩
      · exact .inr ⟨_, List.mem_append_right _ (List.mem_singleton.mpr rfl), h.symm⟩

theorem reachable_pendInv {C : NodeConfig} {n : Node} (h : Reachable C n) : PendInv C n :=
  reachable_induction' (P := PendInv C)
    ⟨(fun r hr => by simp at hr), (fun r a added h => by simp [fixed] at h), (fun i o h => by simp at h)⟩
    (fun _ _ hi hp h => pendInv_prim hi hp h) h

end Node
end PyNDN
