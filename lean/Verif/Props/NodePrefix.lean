import Verif.Props.NodeFilters
/-
C34: removing a registered prefix removes its Interest filter.
-/
namespace PyNDN
namespace Node

/-- No filter of the registration `g` is or will be on the table. -/
structure Gone (g : Nat) (n : Node) : Prop where
  filters : ∀ f ∈ n.filters, f.owner ≠ some g
  prefixes : ∀ p ∈ n.prefixes, p.id ≠ g
  future : g ∈ n.prefixRemoveRequests ∨ ∃ r a q b b', n.args[r]? = some a ∧ a.handler = .register g q b b' ∧ r ∈ cbRefs n.trace

theorem args_entry {n : Node} {r : Nat} {a : ExpressArgs} (h : n.args[r]? = some a) : ∃ x, n.entries[r]? = some x ∧ x.args = a := by
  rw [args_get] at h
  cases hx : n.entries[r]? with
  | none => rw [hx] at h; cases h
  | some e => rw [hx] at h; exact ⟨e, rfl, by simpa using h⟩

theorem gone_prim {C : NodeConfig} {n n' : Node} {g : Nat} (hi : Inv C n) (hp : Prim C n n') (hd : Gone g n) : Gone g n' := by
  have hargs := prim_args hp
  obtain ⟨evs, htr⟩ := shape_trace (prim_shape hp)
  have later : (∃ r a q b b', n.args[r]? = some a ∧ a.handler = .register g q b b' ∧ r ∈ cbRefs n.trace) →
      ∃ r a q b b', n'.args[r]? = some a ∧ a.handler = .register g q b b' ∧ r ∈ cbRefs n'.trace := by
    rintro ⟨r, a, q, b, b', h1, h2, h3⟩
    exact ⟨r, a, q, b, b', prefix_get hargs h1, h2, by rw [htr, cbRefs_append]; exact List.mem_append_left _ h3⟩
  have future : (∀ x ∈ n.prefixRemoveRequests, x ∈ n'.prefixRemoveRequests) → g ∈ n'.prefixRemoveRequests ∨ ∃ r a q b b', n'.args[r]? = some a ∧ a.handler = .register g q b b' ∧ r ∈ cbRefs n'.trace := by
    intro h
    rcases hd.future with h' | h'
    · exact .inl (h _ h')
    · exact .inr (later h')
  cases prim_tables hp with
  | keep hf hpx hr hl htk he => exact ⟨fun f h => hd.filters f (hf ▸ h), fun p h => hd.prefixes p (hpx ▸ h), future (fun x h => hr ▸ h)⟩
  | set id p regex htk hf hpx hr hl htok he =>
    refine ⟨fun f h => ?_, fun p h => hd.prefixes p (hpx ▸ h), future (fun x h => hr ▸ h)⟩
    rw [hf] at h
    rcases List.mem_append.mp h with h | h
    · exact hd.filters f h
    · rw [List.mem_singleton.mp h]; simp
  | unset id h =>
    subst h
    exact ⟨fun f h => hd.filters f (List.mem_filter.mp h).1, hd.prefixes, future (fun x h => h)⟩
  | removeReg id h =>
    subst h
    rw [removeRegistered_eq] at future ⊢
    refine ⟨fun f h => hd.filters f (List.mem_filter.mp h).1, fun p h => hd.prefixes p (List.mem_filter.mp h).1, future (fun x h => ?_)⟩
    dsimp only
    split
    · exact List.mem_append_left _ h
    · exact h
  | register r x hx regId p b b' hh hr hcb he hl htk hreg =>
    have hne : regId = g → g ∈ n.prefixRemoveRequests := by
      rintro rfl
      rcases hd.future with h | ⟨s, a, q, c, c', h1, h2, h3⟩
      · exact h
      · obtain ⟨y, hy, rfl⟩ := args_entry h1
        have : r = s := entry_unique hi hx hy (i := regId) (by unfold argIds; rw [hh]; simp) (by unfold argIds; rw [h2]; simp)
        subst this
        have h4 := hi.ref.once r
        unfold refCount at h4
        have := List.count_pos_iff.mpr h3
        have := List.count_pos_iff.mpr hr
        omega
    have hx' : n'.args[r]? = some x.args := prefix_get hargs (by rw [args_get, hx]; rfl)
    cases hreg with
    | gone hr' hrr hpx hf =>
      refine ⟨fun f h => ?_, fun p h => hd.prefixes p (hpx ▸ h), ?_⟩
      · rcases hf with hf | hf
        · exact hd.filters f (hf ▸ h)
        · rw [hf] at h
          obtain ⟨h1, h2⟩ := List.mem_filter.mp h
          rcases List.mem_append.mp h1 with h1 | h1
          · exact hd.filters f h1
          · rw [List.mem_singleton.mp h1] at h2; simp at h2
      · by_cases hg : regId = g
        · exact .inr ⟨r, x.args, p, b, b', hx', hg ▸ hh, hcb⟩
        · rcases hd.future with h | h
          · exact .inl (by rw [hrr]; exact (List.mem_erase_of_ne (fun h => hg h.symm)).mpr h)
          · exact .inr (later h)
    | plain hr' hrr hf hpx =>
      have hg : regId ≠ g := fun h => hr' (h ▸ hne h)
      refine ⟨fun f h => hd.filters f (hf ▸ h), fun q h => ?_, future (fun x h => hrr ▸ h)⟩
      rw [hpx] at h
      rcases List.mem_append.mp h with h | h
      · exact hd.prefixes q h
      · rw [List.mem_singleton.mp h]; exact hg
    | filter hr' hrr hf hpx hl' hev =>
      have hg : regId ≠ g := fun h => hr' (h ▸ hne h)
      refine ⟨fun f h => ?_, fun q h => ?_, future (fun x h => hrr ▸ h)⟩
      · rw [hf] at h
        rcases List.mem_append.mp h with h | h
        · exact hd.filters f h
        · rw [List.mem_singleton.mp h]
          intro h'
          cases h'
          exact hg rfl
      · rw [hpx] at h
        rcases List.mem_append.mp h with h | h
        · exact hd.prefixes q h
        · rw [List.mem_singleton.mp h]; exact hg

theorem remove_filters {C : NodeConfig} {n : Node} (ht : TabInv C n) (g : Nat) :
    (n.removeRegisteredPrefix g).filters = n.filters.filter (fun f => f.owner ≠ some g) := by
  rw [removeRegistered_eq]
  dsimp only
  refine List.filter_congr (fun f hf => ?_)
  rw [decide_eq_decide]
  constructor
  · intro h ho
    obtain ⟨p, hp1, hp2, hp3⟩ := ht.owner f hf g ho
    have := (ht.ids f (ht.set f hf)).1
    exact h p (List.mem_filter.mpr ⟨hp1, by simp [hp2]⟩) (by omega) hp3.symm
  · intro h p hp h0 hid
    obtain ⟨hp1, hp2⟩ := List.mem_filter.mp hp
    obtain ⟨f', h1, h2, h3⟩ := ht.pid p hp1 (by omega)
    have := ht.uniq f f' (ht.set f hf) h1 (by rw [h2]; exact hid)
    subst this
    simp only [decide_eq_true_eq] at hp2
    exact h (hp2 ▸ h3)

theorem remove_gone {C : NodeConfig} {n : Node} (ht : TabInv C n) (g : Nat) : Gone g (n.removeRegisteredPrefix g) := by
  refine ⟨fun f hf => ?_, fun p hp => ?_, ?_⟩
  · rw [remove_filters ht g] at hf
    simpa using (List.mem_filter.mp hf).2
  · rw [removeRegistered_eq] at hp
    simpa using (List.mem_filter.mp hp).2
  · rw [removeRegistered_eq]
    dsimp only
    by_cases hg : n.prefixes.filter (fun p => decide (p.id = g)) = []
    · refine .inl ?_
      by_cases hm : g ∈ n.prefixRemoveRequests
      · simp [hm]
      · simp only [hg, hm, not_false_eq_true, and_self, if_true]
        exact List.mem_append_right _ (List.mem_singleton.mpr rfl)
    · obtain ⟨p, l, hl⟩ := List.exists_cons_of_ne_nil hg
      have hpm : p ∈ n.prefixes.filter (fun p => decide (p.id = g)) := by rw [hl]; exact List.mem_cons_self ..
      obtain ⟨h1, h2⟩ := List.mem_filter.mp hpm
      simp only [decide_eq_true_eq] at h2
      obtain ⟨r, a, q, b, b', h3, h4, h5⟩ := ht.preg p h1
      exact .inr ⟨r, a, q, b, b', h3, h2 ▸ h4, h5⟩

theorem step_remove {C : NodeConfig} {n : Node} (ha : n.appRuns) (g : Nat) : n.step C (.removeRegisteredPrefix g) = (n.emit (.prefixRemoveCalled g)).removeRegisteredPrefix g := by
  obtain ⟨c, s, hst⟩ := ha
  unfold step; rw [hst]

/-- The states in the call of `removeRegisteredPrefix`. -/
theorem remove_prims {C : NodeConfig} {n : Node} (hr : Reachable C n) (g : Nat) :
    let m := n.emit (.prefixRemoveCalled g)
    Inv C m ∧ TabInv C m ∧ Prim C m (m.removeRegisteredPrefix g) := by
  have hp : Prim C n (n.emit (.prefixRemoveCalled g)) := .note n _ (.inr (.inr (.inr (.inr ⟨g, rfl⟩))))
  exact ⟨inv_prim hp (reachable_inv hr), tabInv_prim (reachable_inv hr) hp (reachable_tabInv hr),
    .removeRegistered _ g (List.mem_append_right _ (List.mem_singleton.mpr rfl))⟩

/-- `removeRegisteredPrefix(g)` takes exactly the filters of this registration from the table. -/
theorem C34_removes_exactly {C : NodeConfig} {n : Node} (hr : Reachable C n) (ha : n.appRuns) (g : Nat) :
    (n.step C (.removeRegisteredPrefix g)).filters = n.filters.filter (fun f => f.owner ≠ some g) := by
  rw [step_remove ha]
  exact remove_filters (remove_prims hr g).2.1 g

/-- After `removeRegisteredPrefix(g)` no filter of this registration is ever on the table, whatever happens after: also if
the forwarder's response comes later. -/
theorem C34_never_on_table {C : NodeConfig} {n : Node} (hr : Reachable C n) (ha : n.appRuns) (g : Nat) (as : List Action) :
    ∀ f ∈ ((n.step C (.removeRegisteredPrefix g)).run C as).filters, f.owner ≠ some g := by
  rw [step_remove ha]
  exact (later_induction (P := Gone g) (fun _ _ hi hp hd => gone_prim hi hp hd) (inv_prim (remove_prims hr g).2.2 (remove_prims hr g).1) (remove_gone (remove_prims hr g).2.1 g) as).filters

/-- Nothing is called for the registration. -/
structure Silent (g : Nat) (old : List Ev) (n : Node) : Prop where
  disp : ∀ i fs, Frame.dispatch i fs ∈ n.stack → ∀ f ∈ fs, f.owner ≠ some g
  trace : ∃ new, n.trace = old ++ new ∧ ∀ k i, Ev.onInterest k i ∈ new → ∃ f, Ev.filterSet f ∈ n.trace ∧ f.id = k ∧ f.owner ≠ some g

theorem silent_prim {C : NodeConfig} {n n' : Node} {g : Nat} {old : List Ev} (ht : TabInv C n) (hg : Gone g n) (hp : Prim C n n') (hd : Silent g old n) : Silent g old n' := by
  have sh := prim_shape hp
  obtain ⟨new, hnew, hcalls⟩ := hd.trace
  have mono : ∀ e ∈ n.trace, e ∈ n'.trace := by
    obtain ⟨evs, htr⟩ := shape_trace sh
    exact fun e he => by rw [htr]; exact List.mem_append_left _ he
  refine ⟨?_, ?_⟩
  · intro i fs hm f hf
    cases sh with
    | same h evs ht hq => exact hd.disp i fs (h ▸ hm) f hf
    | push e h he evs ht' hq =>
      rw [h] at hm
      rcases List.mem_cons.mp hm with rfl | hm
      · have he' : fs = n.filters.filter (fun f => decide (doesMatch C f i.name = .ok true)) := he
        rw [he'] at hf
        exact hg.filters f (List.mem_filter.mp hf).1
      · exact hd.disp i fs hm f hf
    | pop e s h h' hd' ht' => exact hd.disp i fs (by rw [h]; exact List.mem_cons_of_mem _ (h' ▸ hm)) f hf
    | adv e e' s evs h h' ha ht' =>
      have hm' : Frame.dispatch i fs ∈ e' :: s := by
        rcases h' with h' | h' <;> rw [h'] at hm
        · exact hm
        · rcases List.mem_cons.mp hm with hm | hm
          · cases hm
          · exact hm
      rcases List.mem_cons.mp hm' with rfl | hm'
      · cases ha with
        | dispatch _ f0 _ => exact hd.disp i (f0 :: fs) (by rw [h]; exact List.mem_cons_self ..) f (List.mem_cons_of_mem _ hf)
      · exact hd.disp i fs (by rw [h]; exact List.mem_cons_of_mem _ hm') f hf
  · have ext : ∀ evs : List Ev, n'.trace = n.trace ++ evs → (∀ k i, Ev.onInterest k i ∈ evs → ∃ f, Ev.filterSet f ∈ n'.trace ∧ f.id = k ∧ f.owner ≠ some g) →
        ∃ new, n'.trace = old ++ new ∧ ∀ k i, Ev.onInterest k i ∈ new → ∃ f, Ev.filterSet f ∈ n'.trace ∧ f.id = k ∧ f.owner ≠ some g := by
      intro evs h1 h2
      refine ⟨new ++ evs, by rw [h1, hnew, List.append_assoc], fun k i hm => ?_⟩
      rcases List.mem_append.mp hm with hm | hm
      · obtain ⟨f, h3, h4⟩ := hcalls k i hm
        exact ⟨f, mono _ h3, h4⟩
      · exact h2 k i hm
    cases sh with
    | same h evs ht hq => exact ext evs ht (fun k i hm => (hq _ hm).elim)
    | push e h hg evs ht' hq => exact ext evs ht' (fun k i hm => (hq _ hm).elim)
    | pop e s h h' hd' ht' => exact ext [] (by rw [ht', List.append_nil]) (by simp)
    | adv e e' s evs h h' ha ht' =>
      refine ext evs ht' (fun k i hm => ?_)
      cases ha with
      | deliver d r rest a ha evs hev =>
        rcases List.mem_cons.mp hm with hm | hm
        · cases hm
        · exact (quiet_reg hev _ hm).elim
      | deliverNone d r rest ha => cases hm
      | nack d r rest => rw [List.mem_singleton] at hm; cases hm
      | dispatch i' f rest =>
        rw [List.mem_singleton] at hm
        cases hm
        have hs : Frame.dispatch i (f :: rest) ∈ n.stack := by rw [h]; exact List.mem_cons_self ..
        exact ⟨f, mono _ (ht.disp i _ hs f (List.mem_cons_self ..)).1, rfl, hd.disp i _ hs f (List.mem_cons_self ..)⟩

/-- After `removeRegisteredPrefix(g)` the `onInterest` of this registration is not called any more: every call after that is
of another filter.  Except when the library is just passing an Interest to the filter (as in
`C33_during_dispatch`). -/
theorem C34_not_called {C : NodeConfig} {n : Node} (hr : Reachable C n) (ha : n.appRuns) (g : Nat)
    (hd : ∀ f ∈ n.beingDispatched, f.owner ≠ some g) (as : List Action) :
    ∃ new, ((n.step C (.removeRegisteredPrefix g)).run C as).trace = n.trace ++ new ∧
      ∀ k i, Ev.onInterest k i ∈ new → ∀ f, Ev.filterSet f ∈ ((n.step C (.removeRegisteredPrefix g)).run C as).trace → f.id = k → f.owner ≠ some g := by
  rw [step_remove ha]
  obtain ⟨hi, ht, hp⟩ := remove_prims hr g
  have h := later_induction (P := fun m => TabInv C m ∧ Gone g m ∧ Silent g n.trace m)
    (fun _ _ hi hp hd => ⟨tabInv_prim hi hp hd.1, gone_prim hi hp hd.2.1, silent_prim hd.1 hd.2.1 hp hd.2.2⟩)
    (inv_prim hp hi) ⟨tabInv_prim hi hp ht, remove_gone ht g, ?_⟩ as
  · obtain ⟨ht, _, _, new, h1, h2⟩ := h
    refine ⟨new, h1, fun k i hm f hf hid => ?_⟩
    obtain ⟨f', h3, h4, h5⟩ := h2 k i hm
    rw [ht.uniq f f' hf h3 (by rw [hid, h4])]
    exact h5
  · rw [removeRegistered_eq]
    exact ⟨fun i fs hm f hf => hd f (mem_beingDispatched hm hf), [.prefixRemoveCalled g], rfl, by simp⟩

/-! ### The other actions do not take filters from the table -/

theorem finish_filters (r : Node × Bool) : (finish r).filters = r.1.filters := by
  unfold finish; split <;> rfl

theorem callLater_filters (C : NodeConfig) (n : Node) (d : Int) (c : Delayed) : (n.callLater C d c).filters = n.filters := by
  obtain ⟨dl, lt, e, _⟩ := callLater_form C n d c
  rw [e]

theorem dispatch_filters (C : NodeConfig) (n : Node) (i : Interest) : (n.dispatchInterest C i).1.filters = n.filters := by
  unfold dispatchInterest; split <;> rfl

theorem expressHelper_filters (C : NodeConfig) (n : Node) (a : ExpressArgs) (b : Bool) : (n.expressHelper C a b).1.filters = n.filters := by
  have he : ((n.consume a).addEntry C a).filters = n.filters := by
    unfold addEntry
    dsimp only
    split
    · rw [callLater_filters]; rfl
    · rfl
  unfold expressHelper
  dsimp only
  split
  · rfl
  · split
    · exact he
    · split
      · exact he
      · split
        · exact he
        · split
          · rw [dispatch_filters]; exact he
          · exact he

theorem expressArgs_filters (C : NodeConfig) (n : Node) (a : ExpressArgs) (b b' : Bool) : (n.expressArgs C a b b').filters = n.filters := by
  unfold expressArgs
  dsimp only
  split
  · rw [finish_filters, expressHelper_filters]; rfl
  · split
    · split
      · rfl
      · rw [finish_filters, expressHelper_filters]; rfl
    · split <;> rfl
  · split
    · split
      · rfl
      · rw [finish_filters, expressHelper_filters]; rfl
    · rfl

theorem satisfy_filters (n : Node) (d : RxData) : (n.satisfy d).1.filters = n.filters := by
  unfold satisfy
  split
  · next hx => rw [(extract_eq hx).2]; rfl
  · next hx => rw [(extract_eq hx).2]; rfl

theorem send_filters (n : Node) (w : Bytes) (b : Bool) : (n.send w b).1.filters = n.filters := by
  unfold send; split <;> rfl

theorem putData_filters (n : Node) (d : RxData) (w : Except Err Bytes) (b : Bool) : (n.putData d w b).1.filters = n.filters := by
  have h := satisfy_filters n d
  unfold putData
  dsimp only
  split
  · split
    · next heq => rw [heq] at h; exact h
    · next heq => rw [heq] at h; exact h
    · next heq =>
      rw [heq] at h
      split
      · exact h
      · rw [send_filters]; exact h
  · split
    · rfl
    · rw [send_filters]

theorem receive_filters (C : NodeConfig) (n : Node) (e : Bytes) : (n.onReceivedElement C e).1.filters = n.filters := by
  unfold onReceivedElement
  split
  · rfl
  · split
    · split
      · next hx => rw [(extract_eq hx).2]; rfl
      · next hx => rw [(extract_eq hx).2]; rfl
    · rfl
  · exact dispatch_filters C n _
  · exact satisfy_filters n _
  · rfl

theorem callOnData_stay {n : Node} {r : Nat} {d : RxData} {f : FilterEntry} (hf : f ∈ n.filters) (hid : f.id ≤ n.lastId) : f ∈ (n.callOnData r d).filters := by
  unfold callOnData
  split
  · exact hf
  · dsimp only
    split
    · exact hf
    · next regId p b b' _ =>
      obtain ⟨k, fs, ps, rr, evs, st, e, _, _, _, hc⟩ := registerOnData_form (n.emit (.onData _ r d)) d regId p b b'
      rw [e]
      dsimp only
      rcases hc with ⟨_, h5, _, _⟩ | ⟨_, _, _, _, ⟨_, h5⟩ | ⟨_, h5⟩⟩ | ⟨_, _, _, ⟨_, h5, _⟩ | ⟨_, h5, _, _⟩⟩ <;> rw [h5]
      · exact hf
      · exact hf
      · refine List.mem_filter.mpr ⟨List.mem_append_left _ hf, ?_⟩
        simp only [ne_eq, decide_not, Bool.not_eq_eq_eq_not, Bool.not_true, decide_eq_false_iff_not]
        show ¬ f.id = n.lastId + 1
        omega
      · exact hf
      · exact List.mem_append_left _ hf

theorem lib_stay {C : NodeConfig} {n : Node} {b : Bool} {f : FilterEntry} (hf : f ∈ n.filters) (hid : f.id ≤ n.lastId) : f ∈ (n.lib C b).filters := by
  unfold lib
  split
  · exact callOnData_stay (n := { n with stack := _ }) hf hid
  · exact hf
  · exact hf
  · exact hf
  · split
    · split
      · next e es _ _ => rw [(runDelayed_keep { n with delayed := es } e _).1]; exact hf
      · exact hf
    · exact hf
  · exact hf
  · exact hf
  · split
    · rw [finish_filters, expressHelper_filters]; exact hf
    · exact hf
  · exact hf
  · exact hf

/-- A filter leaves the table only by `unsetInterestFilter` with its id or `removeRegisteredPrefix` of its registration. -/
theorem C34_others_stay {C : NodeConfig} {n : Node} (hr : Reachable C n) (a : Action) {f : FilterEntry} (hf : f ∈ n.filters) :
    f ∈ (n.step C a).filters ∨ a = .unsetInterestFilter f.id ∨ ∃ g, a = .removeRegisteredPrefix g ∧ f.owner = some g := by
  have ht := reachable_tabInv hr
  have hid := (ht.ids f (ht.set f hf)).2.1
  by_cases hu : a = .unsetInterestFilter f.id
  · exact .inr (.inl hu)
  by_cases hg : ∃ g, a = .removeRegisteredPrefix g ∧ f.owner = some g
  · exact .inr (.inr hg)
  refine .inl ?_
  unfold step
  split
  · next c s hst =>
    cases a with
    | lib b => exact hf
    | ret => dsimp only; split <;> exact hf
    | raise => dsimp only; split <;> exact hf
    | allocId => exact hf
    | express id i b b' rnd co so =>
      dsimp only
      split
      · rw [expressArgs_filters]; exact hf
      · exact hf
    | removePendingInterest id => dsimp only; rw [removePending_eq]; exact hf
    | registerPrefix id p b b' c rnd co so =>
      dsimp only
      split
      · rw [expressArgs_filters]; exact hf
      · exact hf
    | removeRegisteredPrefix g =>
      dsimp only
      rw [remove_filters (remove_prims hr g).2.1 g]
      exact List.mem_filter.mpr ⟨hf, by simpa using fun h => hg ⟨g, rfl, h⟩⟩
    | setInterestFilter id p r =>
      dsimp only
      split
      · exact List.mem_append_left _ hf
      · exact hf
    | unsetInterestFilter id => exact List.mem_filter.mpr ⟨hf, by simpa using fun h : f.id = id => hu (by rw [h])⟩
    | putData d w b => dsimp only; rw [finish_filters, putData_filters]; exact hf
    | putNack w k b =>
      dsimp only
      rw [finish_filters]
      unfold putNack
      split
      · exact hf
      · rw [send_filters]; exact hf
    | send w b => dsimp only; rw [finish_filters, send_filters]; exact hf
    | callLater d => dsimp only; rw [callLater_filters]; exact hf
    | receive e => dsimp only; rw [finish_filters, receive_filters]; exact hf
    | callTimedOut => exact hf
    | fireTimer k =>
      dsimp only
      split
      · split
        · next e _ _ => rw [(runDelayed_keep { n with loopTimers := n.loopTimers.eraseIdx k } e n.now).1]; exact hf
        · exact hf
      · exact hf
    | connected => dsimp only; split <;> exact hf
    | setLoopback b => exact hf
    | clock t => exact hf
  · split
    · exact lib_stay hf hid
    · exact hf

/-! ### Examples -/

/-- A Data packet /A whose content is a ControlResponse with code 200. -/
def exOk : Bytes := [6, 24, 7, 3, 8, 1, 65, 21, 8, 101, 6, 102, 1, 200, 103, 1, 79, 22, 3, 27, 1, 0, 23, 2, 1, 2]

/-- Register /A with onInterest (id 1; the command Interest is named /A here), and set another filter (id 2). -/
def exReg : List Action :=
  [.allocId, .allocId, .setInterestFilter 2 [⟨.generic, [65]⟩] none,
   .registerPrefix 1 [⟨.generic, [65]⟩] true true exInterest (fun _ => 7) true true, .lib true]

/-- C34: the response comes and then the prefix is removed. -/
example : let n := run exC {} (exReg ++ [.receive exOk, .lib true, .ret, .lib true])
    n.appRuns ∧ n.filters.map (fun f => (f.id, f.owner)) = [(2, none), (4, some 1)] ∧ n.beingDispatched = [] ∧
    (n.run exC [.removeRegisteredPrefix 1]).filters.map (·.id) = [2] ∧
    n.trace.getLast? = some (.registerSuccess 1) := by
  refine ⟨⟨.main, [], by decide +kernel⟩, by decide +kernel, by decide +kernel, by decide +kernel, by decide +kernel⟩

/-- C34: the prefix is removed and then the response comes. -/
example : let n := run exC {} exReg
    let n' := n.run exC [.removeRegisteredPrefix 1, .receive exOk, .lib true, .lib true]
    n.appRuns ∧ n.beingDispatched = [] ∧ n'.appRuns ∧ n'.pending = [] ∧ n'.filters.map (·.id) = [2] ∧
    Ev.filterSet ⟨4, [⟨.generic, [65]⟩], none, some 1⟩ ∈ n'.trace := by
  refine ⟨⟨.main, [], by decide +kernel⟩, by decide +kernel, ⟨.main, [], by decide +kernel⟩, by decide +kernel, by decide +kernel, by decide +kernel⟩

/-- Why `C34_not_called` has a hypothesis on what is being dispatched. -/
theorem C34_during_dispatch : let n := run exC {} (exReg ++ [.receive exOk, .lib true, .ret, .lib true, .receive exInterestWire, .lib true])
    let n' := n.run exC [.removeRegisteredPrefix 1, .ret, .lib true]
    n.appRuns ∧ n'.filters.map (·.id) = [2] ∧ n.trace.filter (isFilterCallOf 4) = [] ∧ n'.trace.filter (isFilterCallOf 4) = [.onInterest 4 exInt] := by
  refine ⟨⟨.guarded, [.dispatch exInt [⟨4, [⟨.generic, [65]⟩], none, some 1⟩], .app .main], by decide +kernel⟩, by decide +kernel, by decide +kernel, by decide +kernel⟩

end Node
end PyNDN
