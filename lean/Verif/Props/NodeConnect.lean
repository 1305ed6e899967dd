import Verif.Props.NodePrefix
/-
C35: Interests expressed while an asynchronous transport connects.
-/
namespace PyNDN
namespace Node

/-- No Interest is processed twice. -/
theorem C35_once (C : NodeConfig) (as : List Action) (hc : C.isAsync = true) (id : Nat) : (helperIds (run C {} as).trace).count id ≤ 1 := by
  have hi := reachable_inv (C := C) ⟨as, rfl⟩
  have h1 := hi.call.order hc
  have h2 := hi.call.once id
  rw [h1, List.count_append] at h2
  omega

/-- Interests are processed in the order in which they were expressed: those processed are always the first of those
expressed. -/
theorem C35_order (C : NodeConfig) (as : List Action) (hc : C.isAsync = true) :
    helperIds (run C {} as).trace <+: calledIds (run C {} as).trace := by
  rw [(reachable_inv (C := C) ⟨as, rfl⟩).call.order hc]
  exact List.prefix_append _ _

/-- When the connection is complete, every Interest expressed so far was processed, once and in order. -/
theorem C35_complete (C : NodeConfig) (as : List Action) (hc : C.isAsync = true) (hs : (run C {} as).status = .complete) :
    helperIds (run C {} as).trace = calledIds (run C {} as).trace := by
  have hi := reachable_inv (C := C) ⟨as, rfl⟩
  rw [hi.call.order hc, hi.call.complete hs, List.map_nil, List.append_nil]

/-! ### Not before the transport has connected -/

structure ConnInv (C : NodeConfig) (n : Node) : Prop where
  frame : Frame.connected ∈ n.stack → Ev.connectedCalled ∈ n.trace
  status : C.isAsync = true → n.status = .complete → Ev.connectedCalled ∈ n.trace
  helper : C.isAsync = true → helperIds n.trace ≠ [] → Ev.connectedCalled ∈ n.trace

theorem helperIds_quiet {evs : List Ev} (h : ∀ x ∈ evs, ∀ i o, x ≠ .helper i o) : helperIds evs = [] := by
  unfold helperIds
  rw [List.filterMap_eq_nil_iff]
  intro x hx
  have := h x hx
  cases x <;> first
    | rfl
    | exact absurd rfl (this _ _)

/-- What a primitive change does to the status and the `helper` events. -/
theorem connInv_prim {C : NodeConfig} {n n' : Node} (hi : Inv C n) (h : Prim C n n') (hc : ConnInv C n) : ConnInv C n' := by
  have mono : ∀ e ∈ n.trace, e ∈ n'.trace := by
    obtain ⟨evs, htr⟩ := shape_trace (prim_shape h)
    exact fun e he => by rw [htr]; exact List.mem_append_left _ he
  have same : n'.status = n.status → helperIds n'.trace = helperIds n.trace → (.connected ∈ n'.stack → .connected ∈ n.stack) → ConnInv C n' := by
    intro h1 h2 h3
    exact ⟨fun hm => mono _ (hc.frame (h3 hm)), fun ha hs => mono _ (hc.status ha (h1 ▸ hs)), fun ha hs => mono _ (hc.helper ha (h2 ▸ hs))⟩
  have yes : (C.isAsync = true → Ev.connectedCalled ∈ n.trace) → (.connected ∈ n'.stack → .connected ∈ n.stack) → ConnInv C n' := by
    intro h1 h3
    exact ⟨fun hm => mono _ (hc.frame (h3 hm)), fun ha _ => mono _ (h1 ha), fun ha _ => mono _ (h1 ha)⟩
  have top : ∀ {f g : Frame} {s : List Frame}, n.stack = f :: s → g ≠ .connected → .connected ∈ g :: s → .connected ∈ n.stack := by
    intro f g s h hg hm
    rw [h]
    rcases List.mem_cons.mp hm with h | h
    · exact absurd h.symm hg
    · exact List.mem_cons_of_mem _ h
  have over : ∀ {g : Frame} {s : List Frame}, g ≠ .connected → (.connected ∈ s → .connected ∈ n.stack) → .connected ∈ g :: s → .connected ∈ n.stack := by
    intro g s hg hs hm
    rcases List.mem_cons.mp hm with h | h
    · exact absurd h.symm hg
    · exact hs h
  have run : ∀ (m : Node) (e : DelayedEntry) (now : Int), m.trace = n.trace → m.status = n.status → m.stack = n.stack → n' = m.runDelayed e now → ConnInv C n' := by
    intro m e now h5 h7 h8 hn
    rcases runDelayed_form m e now with ⟨_, e'⟩ | ⟨r, _, _, e'⟩ | ⟨r, x, _, hx, hr, hp, ⟨_, e'⟩ | ⟨_, evs, hevs, e'⟩⟩ <;> rw [e'] at hn <;> subst hn
    · exact same h7 (by simp [helperIds, h5]) (over (by simp) (by rw [h8]; exact id))
    · exact same h7 (by simp [helperIds, h5]) (fun hm => h8 ▸ hm)
    · exact same h7 (by simp [helperIds, h5]) (fun hm => h8 ▸ hm)
    · refine same h7 ?_ (over (by simp) (by rw [h8]; exact id))
      dsimp only; rw [helperIds_append, (calledIds_reg hevs).2]; simp [helperIds, h5]
  cases h with
  | misc => exact same rfl rfl id
  | push f ho hf =>
    rcases hf with ⟨c, rfl⟩ | ⟨t, rfl⟩ | ⟨rfl, hev⟩ | ⟨rfl, _⟩
    · exact same rfl rfl (over (by simp) id)
    · exact same rfl rfl (over (by simp) id)
    · exact ⟨fun _ => hev, hc.status, hc.helper⟩
    · exact same rfl rfl (over (by simp) id)
  | drop f s h hd hm => exact same rfl rfl (fun hm => by rw [h]; exact List.mem_cons_of_mem _ hm)
  | setComplete s h =>
    refine yes (fun ha => ?_) (fun hm => by rw [h]; exact List.mem_cons_of_mem _ hm)
    exact absurd (by rw [h]; exact List.mem_cons_self ..) (hi.call.frames ha)
  | callData d r rest s h =>
    rcases callOnData_form { n with stack := .deliver d rest :: s } r d with ⟨_, e⟩ | ⟨x, hx, k, fs, ps, rr, evs, st, e, hevs, hst, _⟩
    · rw [e] at same ⊢; exact same rfl rfl (top h (by simp))
    · rw [e] at same ⊢
      refine same rfl ?_ ?_
      · dsimp only; rw [helperIds_append, (calledIds_reg hevs).2]; simp [helperIds]
      · rcases hst with rfl | rfl
        · exact top h (by simp)
        · exact over (by simp) (top h (by simp))
  | callNack k r rest s h => exact same rfl (by simp [helperIds, emit, push]) (over (by simp) (top h (by simp)))
  | callFilter i f rest s h => exact same rfl (by simp [helperIds, emit, push]) (over (by simp) (top h (by simp)))
  | takeData d m taken ha hx => rw [(extract_eq hx).2] at same ⊢; exact same rfl rfl (over (by simp) id)
  | takeNack k w m taken ha hx => rw [(extract_eq hx).2] at same ⊢; exact same rfl rfl (over (by simp) id)
  | takeLost p m taken hx => rw [(extract_eq hx).2] at same ⊢; exact same rfl rfl id
  | timer now e es s h hd hle => exact run { n with delayed := es } e now rfl rfl rfl rfl
  | fire k e ha hk hle => exact run { n with loopTimers := n.loopTimers.eraseIdx k } e n.now rfl rfl rfl rfl
  | alloc => exact same rfl rfl id
  | exprDirect a o htk hst ho =>
    refine yes (fun ha => ?_) (fun hm => by rw [helperCore_stack] at hm; exact hm)
    rcases hst with hst | hst
    · exact hc.status ha hst
    · rw [ha] at hst; cases hst
  | exprQueue a c htk hst ha =>
    refine ⟨fun hm => mono _ (hc.frame hm), (fun _ hs => by cases hs), fun ha hs => mono _ (hc.helper ha (fun h => hs ?_))⟩
    show helperIds (n.trace ++ [_]) = []
    rw [helperIds_append, h]; rfl
  | exprFail a htk ha => exact same rfl (by simp [helperIds, emit, consume]) id
  | runQueue a o s h hq ho => exact yes (fun _ => hc.frame (by rw [h]; exact List.mem_cons_self ..)) (fun hm => by rw [helperCore_stack] at hm; exact hm)
  | queueDone s h hq => exact yes (fun _ => hc.frame (by rw [h]; exact List.mem_cons_self ..)) (fun hm => by rw [h]; exact List.mem_cons_of_mem _ hm)
  | removePending id => rw [removePending_eq] at same ⊢; exact same rfl rfl (fun h => h)
  | removeRegistered id => rw [removeRegistered_eq] at same ⊢; exact same rfl rfl (fun h => h)
  | setFilter id p r htk => exact same rfl (by simp [helperIds, emit]) (fun h => h)
  | unset id => exact same rfl rfl (fun h => h)
  | dispatch i fs hm ho => exact same rfl rfl (over (by simp) id)
  | later d =>
    obtain ⟨dl, lt, e, _⟩ := callLater_form C n d .app
    rw [e] at same ⊢
    exact same rfl (by simp [helperIds]) id
  | note e he => rcases he with ⟨w, rfl, _⟩ | ⟨i, rfl⟩ | rfl | rfl | ⟨j, rfl⟩ <;> exact same rfl (by simp [helperIds, emit]) id

/-- No Interest is processed before the transport has called `onConnected`. -/
theorem C35_not_before (C : NodeConfig) (as : List Action) (hc : C.isAsync = true) (h : helperIds (run C {} as).trace ≠ []) :
    Ev.connectedCalled ∈ (run C {} as).trace :=
  (reachable_induction' (P := ConnInv C) ⟨by simp, (fun _ h => by cases h), (fun _ h => absurd rfl h)⟩
    (fun _ _ hi hp ht => connInv_prim hi hp ht) ⟨as, rfl⟩).helper hc h

/-! ### Afterwards Interests are sent immediately -/

/-- What `_expressInterestHelper` does with an Interest, if `send` works or not. -/
def outcome (n : Node) (a : ExpressArgs) (sendOk : Bool) : Outcome :=
  if a.id ∈ n.removeRequests then .removed
  else if timeoutPrefix.matches a.interest.name then .local
  else match a.wire with
    | .error _ => .failed
    | .ok w => if w.length > maxNdnPacketSize ∨ ¬ sendOk then .failed else .sent w

theorem expressHelper_core (C : NodeConfig) (n : Node) (a : ExpressArgs) (b : Bool) :
    (n.expressHelper C a b).1.trace = (n.helperCore C a (n.outcome a b)).trace ∧
    (n.expressHelper C a b).1.status = n.status ∧ (n.expressHelper C a b).1.queue = n.queue ∧ (n.expressHelper C a b).1.next = n.next ∧
    ((n.expressHelper C a b).1.loopback = n.loopback) ∧
    ((n.outcome a b ≠ .failed → n.loopback = false → (n.expressHelper C a b).2 = false ∧ (n.expressHelper C a b).1 = n.helperCore C a (n.outcome a b))) := by
  have base : ∀ o, (n.helperCore C a o).status = n.status ∧ (n.helperCore C a o).queue = n.queue ∧ (n.helperCore C a o).next = n.next ∧ (n.helperCore C a o).loopback = n.loopback := by
    intro o
    rcases helperCore_form C n a o with ⟨_, e⟩ | ⟨_, sq, dl, lt, evs', e, hevs⟩ <;> rw [e] <;> exact ⟨rfl, rfl, rfl, rfl⟩
  have hrem : (n.consume a).removeRequests = n.removeRequests := rfl
  by_cases h : a.id ∈ n.removeRequests
  · have ho : n.outcome a b = .removed := by unfold outcome; rw [if_pos h]
    have e : n.expressHelper C a b = (n.helperCore C a .removed, false) := by
      unfold expressHelper helperCore; dsimp only; rw [hrem, if_pos h, if_pos rfl]
    rw [ho, e]
    obtain ⟨h1, h2, h3, h4⟩ := base .removed
    exact ⟨rfl, h1, h2, h3, h4, fun _ _ => ⟨rfl, rfl⟩⟩
  by_cases hl : timeoutPrefix.matches a.interest.name = true
  · have ho : n.outcome a b = .local := by unfold outcome; rw [if_neg h, if_pos hl]
    have e : n.expressHelper C a b = (n.helperCore C a .local, false) := by
      unfold expressHelper; dsimp only; rw [hrem, if_neg h, if_pos hl, addEntry_helper C n a _ (by simp)]
    rw [ho, e]
    obtain ⟨h1, h2, h3, h4⟩ := base .local
    exact ⟨rfl, h1, h2, h3, h4, fun _ _ => ⟨rfl, rfl⟩⟩
  cases hw : a.wire with
  | error x =>
    have ho : n.outcome a b = .failed := by unfold outcome; rw [if_neg h, if_neg hl, hw]
    have e : n.expressHelper C a b = (n.helperCore C a .failed, true) := by
      unfold expressHelper; dsimp only; rw [hrem, if_neg h, if_neg hl, hw]; dsimp only; rw [addEntry_helper C n a _ (by simp)]
    rw [ho, e]
    obtain ⟨h1, h2, h3, h4⟩ := base .failed
    exact ⟨rfl, h1, h2, h3, h4, fun h _ => absurd rfl h⟩
  | ok w =>
    by_cases hs : w.length > maxNdnPacketSize ∨ ¬ b
    · have ho : n.outcome a b = .failed := by unfold outcome; rw [if_neg h, if_neg hl, hw]; dsimp only; rw [if_pos hs]
      have e : n.expressHelper C a b = (n.helperCore C a .failed, true) := by
        unfold expressHelper; dsimp only; rw [hrem, if_neg h, if_neg hl, hw]; dsimp only; rw [if_pos hs, addEntry_helper C n a _ (by simp)]
      rw [ho, e]
      obtain ⟨h1, h2, h3, h4⟩ := base .failed
      exact ⟨rfl, h1, h2, h3, h4, fun h _ => absurd rfl h⟩
    · have ho : n.outcome a b = .sent w := by unfold outcome; rw [if_neg h, if_neg hl, hw]; dsimp only; rw [if_neg hs]
      have e : n.expressHelper C a b = if (n.helperCore C a (.sent w)).loopback then (n.helperCore C a (.sent w)).dispatchInterest C a.interest else (n.helperCore C a (.sent w), false) := by
        unfold expressHelper; dsimp only; rw [hrem, if_neg h, if_neg hl, hw]; dsimp only; rw [if_neg hs, addEntry_helper C n a _ (by simp)]
      rw [ho, e]
      obtain ⟨h1, h2, h3, h4⟩ := base (.sent w)
      split
      · next hl =>
        unfold dispatchInterest
        split
        · exact ⟨rfl, h1, h2, h3, h4, (fun _ h => by rw [h4, h] at hl; cases hl)⟩
        · exact ⟨rfl, h1, h2, h3, h4, (fun _ h => by rw [h4, h] at hl; cases hl)⟩
      · exact ⟨rfl, h1, h2, h3, h4, fun _ _ => ⟨rfl, rfl⟩⟩

theorem helperCore_events (C : NodeConfig) (n : Node) (a : ExpressArgs) (o : Outcome) :
    ∃ pre, (n.helperCore C a o).trace = n.trace ++ pre ++ [.helper a.id o] ∧ (pre = [] ∨ ∃ k t, pre = [.scheduled k t]) := by
  rcases helperCore_form C n a o with ⟨_, e⟩ | ⟨_, sq, dl, lt, evs', e, hevs⟩ <;> rw [e]
  · exact ⟨[], by simp, .inl rfl⟩
  · exact ⟨evs', rfl, hevs⟩

/-- When the connection is complete, `expressInterest` processes the Interest at once: unless there was a remove request it
puts it on the table, and if nothing raises it sends its encoding (except for a name under /local/timeout). -/
theorem C35_immediately {C : NodeConfig} {n : Node} (ha : n.appRuns) (hs : n.status = .complete) {id : Nat} (hid : id ∈ n.tokens)
    (i : Interest) (ht hn co so : Bool) (rnd : Nat → UInt8) :
    ∃ new, (n.step C (.express id i ht hn rnd co so)).trace = n.trace ++ [.called id] ++ new ++ [.helper id (n.outcome (makeArgs id i .app ht hn rnd) so)] ∧
      helperIds new = [] ∧ (n.step C (.express id i ht hn rnd co so)).status = .complete := by
  obtain ⟨c, s, hst⟩ := ha
  have hstep : n.step C (.express id i ht hn rnd co so) = finish ((n.emit (.called id)).expressHelper C (makeArgs id i .app ht hn rnd) so) := by
    unfold step
    rw [hst]
    dsimp only
    rw [if_pos hid]
    unfold expressArgs
    have : (n.emit (.called (makeArgs id i .app ht hn rnd).id)).status = .complete := hs
    dsimp only
    rw [this]
    rfl
  have hfin : ∀ r : Node × Bool, (finish r).trace = r.1.trace ∧ (finish r).status = r.1.status := by
    intro r; unfold finish; split <;> exact ⟨rfl, rfl⟩
  obtain ⟨h1, h2, _⟩ := expressHelper_core C (n.emit (.called id)) (makeArgs id i .app ht hn rnd) so
  obtain ⟨pre, h3, h4⟩ := helperCore_events C (n.emit (.called id)) (makeArgs id i .app ht hn rnd) ((n.emit (.called id)).outcome (makeArgs id i .app ht hn rnd) so)
  rw [hstep, (hfin _).1, (hfin _).2, h1, h2, h3]
  exact ⟨pre, rfl, by rcases h4 with rfl | ⟨k, t, rfl⟩ <;> rfl, hs⟩

theorem later_mem {C : NodeConfig} {n : Node} (hr : Reachable C n) (as : List Action) {e : Ev} (h : e ∈ n.trace) : e ∈ (n.run C as).trace := by
  refine later_induction (P := fun m => e ∈ m.trace) (fun m m' _ hp hm => ?_) (reachable_inv hr) h as
  obtain ⟨evs, htr⟩ := shape_trace (prim_shape hp)
  rw [htr]
  exact List.mem_append_left _ hm

/-! ### onConnected processes the queue -/

/-- When the transport has called `onConnected` and nothing raises, all the Interests in the queue are processed in
order: each is put on the table and sent, unless there is a remove request or the name is under /local/timeout.
Then the connection is complete.  (Stated without loopback; with it, the library calls the
application in between.)  If processing an Interest raises an exception, the others are never sent: see `C35_stuck`. -/
theorem C35_drains_partial {C : NodeConfig} (hc : C.isAsync = true) : ∀ (l : List ExpressArgs) {n : Node} {s : List Frame}, Reachable C n →
    n.stack = .connected :: s → n.loopback = false → n.waiting = l →
    (∀ a ∈ l, ∃ w, a.wire = .ok w ∧ w.length ≤ maxNdnPacketSize) →
    let n' := n.run C (List.replicate (l.length + 1) (.lib true))
    n'.status = .complete ∧ n'.stack = s ∧ helperIds n'.trace = helperIds n.trace ++ l.map (·.id) ∧
    ∀ a ∈ l, Ev.helper a.id (n.outcome a true) ∈ n'.trace ∧ n.outcome a true ≠ .failed := by
  intro l
  induction l with
  | nil =>
    intro n s hr hst hl hw _
    have hq : n.queue[n.next]? = none := by
      rw [List.getElem?_eq_none_iff]
      exact List.drop_eq_nil_iff.mp hw
    have e : n.step C (.lib true) = { n with queue := [], next := 0, status := .complete, stack := s } := by
      unfold step
      rw [hst]
      dsimp only
      unfold lib
      rw [hst]
      dsimp only
      rw [hq]
    show (n.step C (.lib true)).status = _ ∧ _
    have e1 : n.run C (List.replicate (([] : List ExpressArgs).length + 1) (.lib true)) = n.step C (.lib true) := rfl
    rw [e1, e]
    exact ⟨rfl, rfl, by simp, by simp⟩
  | cons a l ih =>
    intro n s hr hst hl hw hok
    have hdrop : n.queue.drop n.next = a :: l := hw
    have hq : n.queue[n.next]? = some a := by
      have := congrArg (fun x => x[0]?) hdrop
      simpa using this
    have hrest : n.queue.drop (n.next + 1) = l := by
      have := congrArg (List.drop 1) hdrop
      simpa using this
    have hno : ∀ b ∈ a :: l, n.outcome b true ≠ .failed := by
      intro b hb
      obtain ⟨w, hbw, hlen⟩ := hok b hb
      unfold outcome
      rw [hbw]
      dsimp only
      rw [if_neg (c := _ ∨ _) (by simp; omega)]
      split
      · simp
      · split <;> simp
    obtain ⟨_, _, _, _, _, h6⟩ := expressHelper_core C { n with next := n.next + 1 } a true
    have ho : Node.outcome { n with next := n.next + 1 } a true = n.outcome a true := rfl
    rw [ho] at h6
    obtain ⟨g1, g2⟩ := h6 (hno a (List.mem_cons_self ..)) hl
    generalize hm : Node.helperCore C { n with next := n.next + 1 } a (n.outcome a true) = m at g2
    have e : n.step C (.lib true) = m := by
      unfold step
      rw [hst]
      dsimp only
      unfold lib
      rw [hst]
      dsimp only
      rw [hq]
      dsimp only
      rw [← hst]
      unfold finish
      rw [g1]
      exact g2
    have hstm : m.stack = .connected :: s := by rw [← hm, helperCore_stack]; exact hst
    have hevm : ∃ pre, m.trace = n.trace ++ pre ++ [.helper a.id (n.outcome a true)] ∧ (pre = [] ∨ ∃ k t, pre = [.scheduled k t]) := by
      rw [← hm]; exact helperCore_events C _ a _
    have hfm : m.queue = n.queue ∧ m.next = n.next + 1 ∧ m.loopback = n.loopback ∧ (m.removeRequests = n.removeRequests ∨ m.removeRequests = n.removeRequests.erase a.id) := by
      rw [← hm]
      rcases helperCore_form C { n with next := n.next + 1 } a (n.outcome a true) with ⟨_, e⟩ | ⟨_, sq, dl, lt, evs', e, hevs⟩ <;> rw [e]
      · exact ⟨rfl, rfl, rfl, .inr rfl⟩
      · exact ⟨rfl, rfl, rfl, .inl rfl⟩
    obtain ⟨f1, f2, f3, f4⟩ := hfm
    have hrm : Reachable C m := by
      rw [← e]
      exact reachable_run hr [.lib true]
    have hwm : m.waiting = l := by unfold waiting; rw [f1, f2]; exact hrest
    have hsame : ∀ b ∈ l, m.outcome b true = n.outcome b true := by
      intro b hb
      have hne : b.id ≠ a.id := by
        intro heq
        have hi := reachable_inv hr
        have h1 := hi.call.order hc
        have h2 := hi.call.once a.id
        rw [h1, List.count_append, hw, List.map_cons, List.count_cons, if_pos (by simp)] at h2
        have : 0 < List.count a.id (l.map (·.id)) := List.count_pos_iff.mpr (List.mem_map.mpr ⟨b, hb, heq⟩)
        omega
      have : (b.id ∈ m.removeRequests) = (b.id ∈ n.removeRequests) := by
        rcases f4 with f4 | f4 <;> rw [f4]
        exact propext (List.mem_erase_of_ne hne)
      unfold outcome
      simp only [this]
    obtain ⟨i1, i2, i3, i4⟩ := ih hrm hstm (by rw [f3]; exact hl) hwm (fun b hb => hok b (List.mem_cons_of_mem _ hb))
    have erun : n.run C (List.replicate ((a :: l).length + 1) (.lib true)) = m.run C (List.replicate (l.length + 1) (.lib true)) := by
      rw [← e]; rfl
    rw [erun]
    obtain ⟨pre, p1, p2⟩ := hevm
    refine ⟨i1, i2, ?_, ?_⟩
    · rw [i3, p1]
      rw [helperIds_append, helperIds_append]
      have : helperIds pre = [] := by rcases p2 with rfl | ⟨k, t, rfl⟩ <;> rfl
      rw [this]
      simp [helperIds]
    · intro b hb
      refine ⟨?_, hno b hb⟩
      rcases List.mem_cons.mp hb with rfl | hb
      · refine later_mem hrm _ ?_
        rw [p1]
        simp
      · rw [← hsame b hb]
        exact (i4 b hb).1

/-! ### Examples -/

/-- A face with an asynchronous transport. -/
def exA : NodeConfig := { exC with isAsync := true }

/-- Three Interests are expressed before the transport has connected, and one of them is removed. -/
def exQueue : List Action :=
  [.allocId, .allocId, .allocId, .allocId, .express 1 exInterest true true (fun _ => 7) true true, .express 2 exOther true false (fun _ => 8) true true,
   .express 3 exInterest false false (fun _ => 9) true true, .removePendingInterest 2, .connected]

/-- The hypotheses of `C35_drains_partial` hold, and its result: the two that were not removed are sent; the connection is complete, and the
next is sent at once (`C35_immediately`). -/
example : let n := run exA {} exQueue
    let n' := n.run exA [.lib true, .lib true, .lib true, .lib true]
    n.stack = [.connected, .app .main] ∧ n.loopback = false ∧ n.waiting.map (·.id) = [1, 2, 3] ∧ n.status = .requested ∧ helperIds n.trace = [] ∧
    (∀ a ∈ n.waiting, a.wire.toOption.isSome = true) ∧
    n'.status = .complete ∧ n'.stack = [.app .main] ∧ 4 ∈ n'.tokens ∧
    n'.trace.filter (fun e => match e with | .helper _ _ => true | _ => false) =
      [.helper 1 (.sent exInterestWire), .helper 2 .removed, .helper 3 (.sent [5, 11, 7, 3, 8, 1, 65, 10, 4, 9, 9, 9, 9])] ∧
    helperIds (n'.step exA (.express 4 exOther true true (fun _ => 7) true true)).trace = [1, 2, 3, 4] := by
  decide +kernel

/-- Why `C35_drains_partial` supposes that nothing raises: here `send` raises for the first of three queued Interests.  The others are never
sent: the connection is not completed, and `onConnected` does not come again, so Interests expressed later are only
put in the queue too. -/
theorem C35_stuck : let n := (run exA {} exQueue).run exA [.lib false]
    let n' := n.run exA [.express 4 exOther true true (fun _ => 7) true true, .connected, .lib true, .lib true]
    n.stack = [.app .main] ∧ n.status = .requested ∧ n.connecting = false ∧ n.waiting.map (·.id) = [2, 3] ∧
    n'.waiting.map (·.id) = [2, 3, 4] ∧ helperIds n'.trace = [1] ∧ n'.pending.map (·.args.id) = [1] := by
  decide +kernel

/-- Likewise if the transport's `connect` raises in the first `expressInterest`: the status stays as if it were connecting, so the
library does not try to connect again and no Interest is ever sent. -/
theorem C35_connect_raises : let n := run exA {} [.allocId, .allocId, .express 1 exInterest true true (fun _ => 7) false true]
    let n' := n.run exA [.express 2 exOther true false (fun _ => 8) true true, .connected, .lib true]
    n.stack = [.app .main] ∧ n.status = .requested ∧ n.connecting = false ∧
    n'.stack = [.app .main] ∧ n'.waiting.map (·.id) = [1, 2] ∧ helperIds n'.trace = [] ∧ n'.pending = [] := by
  decide +kernel

end Node
end PyNDN
