import Verif.Lemmas.NodeLoop
/-
What a primitive change does to the table of Interest filters and the table of registered prefixes.
-/
namespace PyNDN
namespace Node

theorem runDelayed_keep (n : Node) (e : DelayedEntry) (now : Int) :
    (n.runDelayed e now).filters = n.filters ∧ (n.runDelayed e now).prefixes = n.prefixes ∧
    (n.runDelayed e now).prefixRemoveRequests = n.prefixRemoveRequests ∧ (n.runDelayed e now).lastId = n.lastId ∧
    (n.runDelayed e now).tokens = n.tokens ∧ ∀ f, Ev.filterSet f ∈ (n.runDelayed e now).trace → Ev.filterSet f ∈ n.trace := by
  unfold runDelayed
  dsimp only
  split
  · unfold processTimeout
    split
    · exact ⟨rfl, rfl, rfl, rfl, rfl, fun f h => by simpa [emit] using h⟩
    · split
      · exact ⟨rfl, rfl, rfl, rfl, rfl, fun f h => by simpa [emit] using h⟩
      · split
        · exact ⟨rfl, rfl, rfl, rfl, rfl, fun f h => by simpa [emit] using h⟩
        · dsimp only
          split
          · split
            · exact ⟨rfl, rfl, rfl, rfl, rfl, fun f h => by simpa [emit, push, markRemoved] using h⟩
            · exact ⟨rfl, rfl, rfl, rfl, rfl, fun f h => by simpa [emit, push, markRemoved] using h⟩
          · exact ⟨rfl, rfl, rfl, rfl, rfl, fun f h => by simpa [emit, markRemoved] using h⟩
  · exact ⟨rfl, rfl, rfl, rfl, rfl, fun f h => by simpa [emit, push] using h⟩

theorem helperCore_keep (C : NodeConfig) (n : Node) (a : ExpressArgs) (o : Outcome) :
    (n.helperCore C a o).filters = n.filters ∧ (n.helperCore C a o).prefixes = n.prefixes ∧
    (n.helperCore C a o).prefixRemoveRequests = n.prefixRemoveRequests ∧ (n.helperCore C a o).lastId = n.lastId ∧
    (∀ t ∈ (n.helperCore C a o).tokens, t ∈ n.tokens) ∧
    ∀ f, Ev.filterSet f ∈ (n.helperCore C a o).trace → Ev.filterSet f ∈ n.trace := by
  rcases helperCore_form C n a o with ⟨_, e⟩ | ⟨_, sq, dl, lt, evs', e, hevs⟩
  · rw [e]; exact ⟨rfl, rfl, rfl, rfl, fun t h => (consume_tokens n a).subset h, fun f h => by simpa using h⟩
  · rw [e]
    refine ⟨rfl, rfl, rfl, rfl, fun t h => (consume_tokens n a).subset h, fun f h => ?_⟩
    rcases hevs with rfl | ⟨k, t, rfl⟩ <;> simpa using h

/-- The result of a successful registration response for `regId`. -/
inductive Registers (n n' : Node) (regId : Nat) (p : Name) : Prop
  /-- It had been removed. -/
  | gone (hr : regId ∈ n.prefixRemoveRequests) (hrr : n'.prefixRemoveRequests = n.prefixRemoveRequests.erase regId) (hp : n'.prefixes = n.prefixes)
      (hf : n'.filters = n.filters ∨ n'.filters = (n.filters ++ [(⟨n.lastId + 1, p, none, some regId⟩ : FilterEntry)]).filter (fun f => f.id ≠ n.lastId + 1))
  /-- It has no onInterest. -/
  | plain (hr : regId ∉ n.prefixRemoveRequests) (hrr : n'.prefixRemoveRequests = n.prefixRemoveRequests) (hf : n'.filters = n.filters)
      (hp : n'.prefixes = n.prefixes ++ [(⟨regId, p, 0⟩ : PrefixEntry)])
  | filter (hr : regId ∉ n.prefixRemoveRequests) (hrr : n'.prefixRemoveRequests = n.prefixRemoveRequests)
      (hf : n'.filters = n.filters ++ [(⟨n.lastId + 1, p, none, some regId⟩ : FilterEntry)])
      (hp : n'.prefixes = n.prefixes ++ [(⟨regId, p, n.lastId + 1⟩ : PrefixEntry)])
      (hl : n'.lastId = n.lastId + 1) (he : Ev.filterSet ⟨n.lastId + 1, p, none, some regId⟩ ∈ n'.trace)

/-- What a primitive change does to the tables of filters and registered prefixes. -/
inductive RShape (n n' : Node) : Prop
  | keep (hf : n'.filters = n.filters) (hp : n'.prefixes = n.prefixes) (hr : n'.prefixRemoveRequests = n.prefixRemoveRequests)
      (hl : n.lastId ≤ n'.lastId) (ht : ∀ t ∈ n'.tokens, t ∈ n.tokens ∨ n.lastId < t)
      (he : ∀ f, Ev.filterSet f ∈ n'.trace → Ev.filterSet f ∈ n.trace)
  | set (id : Nat) (p : Name) (regex : Option Nat) (htk : id ∈ n.tokens) (hf : n'.filters = n.filters ++ [(⟨id, p, regex, none⟩ : FilterEntry)])
      (hp : n'.prefixes = n.prefixes) (hr : n'.prefixRemoveRequests = n.prefixRemoveRequests)
      (hl : n'.lastId = n.lastId) (ht : n'.tokens = n.tokens.erase id)
      (he : n'.trace = n.trace ++ [.filterSet ⟨id, p, regex, none⟩])
  | unset (id : Nat) (h : n' = n.unsetInterestFilter id)
  | removeReg (id : Nat) (h : n' = n.removeRegisteredPrefix id)
  | register (r : Nat) (x : PitEntry) (hx : n.entries[r]? = some x) (regId : Nat) (p : Name) (b b' : Bool)
      (hh : x.args.handler = .register regId p b b') (hr : r ∈ frameRefs n.stack) (hcb : r ∈ cbRefs n'.trace)
      (he : ∀ f, Ev.filterSet f ∈ n'.trace → Ev.filterSet f ∈ n.trace ∨ (f = ⟨n.lastId + 1, p, none, some regId⟩ ∧ n'.lastId = n.lastId + 1))
      (hl : n.lastId ≤ n'.lastId) (ht : n'.tokens = n.tokens) (h : Registers n n' regId p)

theorem prim_tables {C : NodeConfig} {n n' : Node} (h : Prim C n n') : RShape n n' := by
  have keep : ∀ m : Node, m.filters = n.filters → m.prefixes = n.prefixes → m.prefixRemoveRequests = n.prefixRemoveRequests →
      m.lastId = n.lastId → m.tokens = n.tokens → m.trace = n.trace → RShape n m := fun m h1 h2 h3 h4 h5 h6 =>
    .keep h1 h2 h3 (Nat.le_of_eq h4.symm) (fun t ht => .inl (h5 ▸ ht)) (fun f hf => h6 ▸ hf)
  have sub : ∀ m : Node, m.filters = n.filters → m.prefixes = n.prefixes → m.prefixRemoveRequests = n.prefixRemoveRequests →
      m.lastId = n.lastId → (∀ t ∈ m.tokens, t ∈ n.tokens) → (∀ f, Ev.filterSet f ∈ m.trace → Ev.filterSet f ∈ n.trace) → RShape n m := fun m h1 h2 h3 h4 h5 h6 =>
    .keep h1 h2 h3 (Nat.le_of_eq h4.symm) (fun t ht => .inl (h5 t ht)) h6
  have helper : ∀ (m : Node) (a : ExpressArgs) (o : Outcome), m.filters = n.filters → m.prefixes = n.prefixes → m.prefixRemoveRequests = n.prefixRemoveRequests →
      m.lastId = n.lastId → m.tokens = n.tokens → (∀ f, Ev.filterSet f ∈ m.trace → Ev.filterSet f ∈ n.trace) → RShape n (m.helperCore C a o) := by
    intro m a o h1 h2 h3 h4 h5 h6
    obtain ⟨x1, x2, x3, x4, x5, x6⟩ := helperCore_keep C m a o
    exact sub _ (x1.trans h1) (x2.trans h2) (x3.trans h3) (x4.trans h4) (fun t ht => h5 ▸ x5 t ht) (fun f hf => h6 f (x6 f hf))
  cases h with
  | misc => exact keep _ rfl rfl rfl rfl rfl rfl
  | push f ho hf => exact keep _ rfl rfl rfl rfl rfl rfl
  | drop f s h hd hm => exact keep _ rfl rfl rfl rfl rfl rfl
  | setComplete s h => exact keep _ rfl rfl rfl rfl rfl rfl
  | callData d r rest s h =>
    cases hx : n.entries[r]? with
    | none =>
      have : ({ n with stack := .deliver d rest :: s }.callOnData r d) = { n with stack := .deliver d rest :: s } := by
        unfold callOnData; dsimp only; rw [hx]
      rw [this]
      exact keep _ rfl rfl rfl rfl rfl rfl
    | some x =>
      cases hh : x.args.handler with
      | app =>
        have : ({ n with stack := .deliver d rest :: s }.callOnData r d) = ({ n with stack := .deliver d rest :: s }.emit (.onData x.args.id r d)).push (.app .guarded) := by
          unfold callOnData; dsimp only; rw [hx]; dsimp only; rw [hh]
        rw [this]
        exact sub _ rfl rfl rfl rfl (fun t h => h) (fun f h => by simpa [emit, push] using h)
      | register regId p b b' =>
        have : ({ n with stack := .deliver d rest :: s }.callOnData r d) = ({ n with stack := .deliver d rest :: s }.emit (.onData x.args.id r d)).registerOnData d regId p b b' := by
          unfold callOnData; dsimp only; rw [hx]; dsimp only; rw [hh]
        rw [this]
        obtain ⟨k, fs, ps, rr, evs, st, e, hevs, hst, hset, hc⟩ := registerOnData_form ({ n with stack := .deliver d rest :: s }.emit (.onData x.args.id r d)) d regId p b b'
        rw [e]
        have hset' : ∀ f, Ev.filterSet f ∈ ({ n with stack := .deliver d rest :: s }.emit (.onData x.args.id r d)).trace ++ evs →
            Ev.filterSet f ∈ n.trace ∨ (f = ⟨n.lastId + 1, p, none, some regId⟩ ∧ n.lastId + k = n.lastId + 1) := by
          intro f hf
          rcases List.mem_append.mp hf with hf | hf
          · exact .inl (by simpa [emit] using hf)
          · obtain ⟨h1, h2⟩ := hset f hf
            exact .inr ⟨h2, by rw [h1]⟩
        rcases hc with ⟨h1, h2, h3, h4⟩ | hc
        · refine sub _ h2 h3 h4 (by show n.lastId + k = _; rw [h1]; rfl) (fun t h => h) (fun f hf => ?_)
          rcases hset' f hf with hf | ⟨_, hf⟩
          · exact hf
          · omega
        · refine .register r x hx regId p b b' hh (by rw [h]; exact List.mem_cons_self ..) ?_ hset' (Nat.le_add_right _ _) rfl ?_
          · show r ∈ cbRefs (({ n with stack := .deliver d rest :: s }.emit (.onData x.args.id r d)).trace ++ evs)
            rw [cbRefs_append, cbRefs_reg hevs, List.append_nil]
            show r ∈ cbRefs (n.trace ++ [_])
            rw [cbRefs_append]
            exact List.mem_append_right _ (List.mem_singleton.mpr rfl)
          · rcases hc with ⟨_, h2, h3, h4, ⟨_, h5⟩ | ⟨_, h5⟩⟩ | ⟨_, h2, h3, ⟨_, h5, h6⟩ | ⟨h4, h5, h6, h7⟩⟩
            · exact .gone h2 h3 h4 (.inl h5)
            · exact .gone h2 h3 h4 (.inr h5)
            · exact .plain h2 h3 h5 h6
            · exact .filter h2 h3 h5 h6 (by show n.lastId + k = _; rw [h4]) (List.mem_append_right _ h7)
  | callNack k r rest s h => exact sub _ rfl rfl rfl rfl (fun t h => h) (fun f h => by simpa [emit, push] using h)
  | callFilter i f rest s h => exact sub _ rfl rfl rfl rfl (fun t h => h) (fun f h => by simpa [emit, push] using h)
  | takeData d n' taken ha hx => rw [(extract_eq hx).2]; exact keep _ rfl rfl rfl rfl rfl rfl
  | takeNack k w n' taken ha hx => rw [(extract_eq hx).2]; exact keep _ rfl rfl rfl rfl rfl rfl
  | takeLost p n' taken hx => rw [(extract_eq hx).2]; exact keep _ rfl rfl rfl rfl rfl rfl
  | timer now e es s h hd hle =>
    obtain ⟨h1, h2, h3, h4, h5, h6⟩ := runDelayed_keep { n with delayed := es } e now
    exact sub _ h1 h2 h3 h4 (fun t h => h5 ▸ h) h6
  | fire k e ha hk hle =>
    obtain ⟨h1, h2, h3, h4, h5, h6⟩ := runDelayed_keep { n with loopTimers := n.loopTimers.eraseIdx k } e n.now
    exact sub _ h1 h2 h3 h4 (fun t h => h5 ▸ h) h6
  | alloc =>
    refine .keep rfl rfl rfl (Nat.le_succ _) (fun t ht => ?_) (fun f h => h)
    rcases List.mem_append.mp ht with ht | ht
    · exact .inl ht
    · exact .inr (by rw [List.mem_singleton.mp ht]; exact Nat.lt_succ_self _)
  | exprDirect a o htk hst ho => exact helper (n.emit (.called a.id)) a o rfl rfl rfl rfl rfl (fun f h => by simpa [emit] using h)
  | exprQueue a c htk hst ha => exact sub _ rfl rfl rfl rfl (fun t h => (consume_tokens (n.emit (.called a.id)) a).subset h) (fun f h => by simpa [emit, consume] using h)
  | exprFail a htk ha => exact sub _ rfl rfl rfl rfl (fun t h => (consume_tokens (n.emit (.called a.id)) a).subset h) (fun f h => by simpa [emit, consume] using h)
  | runQueue a o s h hq ho => exact helper { n with next := n.next + 1 } a o rfl rfl rfl rfl rfl (fun f h => h)
  | queueDone s h hq => exact keep _ rfl rfl rfl rfl rfl rfl
  | removePending id => rw [removePending_eq]; exact keep _ rfl rfl rfl rfl rfl rfl
  | removeRegistered id => exact .removeReg id rfl
  | setFilter id p r htk => exact .set id p r htk rfl rfl rfl rfl rfl rfl
  | unset id => exact .unset id rfl
  | dispatch i fs hm ho => exact keep _ rfl rfl rfl rfl rfl rfl
  | later d =>
    obtain ⟨dl, lt, e, hc⟩ := callLater_form C n d .app
    rw [e]
    exact sub _ rfl rfl rfl rfl (fun t h => h) (fun f h => by simpa using h)
  | note e he => exact sub _ rfl rfl rfl rfl (fun t h => h) (fun f h => by rcases he with ⟨w, rfl, _⟩ | ⟨i, rfl⟩ | rfl | rfl | ⟨j, rfl⟩ <;> simpa [emit] using h)

theorem shape_trace {C : NodeConfig} {n n' : Node} (h : Shape C n n') : ∃ evs, n'.trace = n.trace ++ evs := by
  cases h with
  | same h evs ht hq => exact ⟨evs, ht⟩
  | push f h hf evs ht hq => exact ⟨evs, ht⟩
  | pop f s h h' hd ht => exact ⟨[], by rw [ht, List.append_nil]⟩
  | adv f f' s evs h h' ha ht => exact ⟨evs, ht⟩

structure TabInv (C : NodeConfig) (n : Node) : Prop where
  set : ∀ f ∈ n.filters, Ev.filterSet f ∈ n.trace
  ids : ∀ f, Ev.filterSet f ∈ n.trace → 0 < f.id ∧ f.id ≤ n.lastId ∧ f.id ∉ n.tokens
  uniq : ∀ f g, Ev.filterSet f ∈ n.trace → Ev.filterSet g ∈ n.trace → f.id = g.id → f = g
  owner : ∀ f ∈ n.filters, ∀ g, f.owner = some g → ∃ p ∈ n.prefixes, p.id = g ∧ p.filterId = f.id
  pid : ∀ p ∈ n.prefixes, p.filterId ≠ 0 → ∃ f, Ev.filterSet f ∈ n.trace ∧ f.id = p.filterId ∧ f.owner = some p.id
  preg : ∀ p ∈ n.prefixes, ∃ r a q b b', n.args[r]? = some a ∧ a.handler = .register p.id q b b' ∧ r ∈ cbRefs n.trace
  disp : ∀ i fs, Frame.dispatch i fs ∈ n.stack → ∀ f ∈ fs, Ev.filterSet f ∈ n.trace ∧ doesMatch C f i.name = .ok true
  call : ∀ k i, Ev.onInterest k i ∈ n.trace → ∃ f, Ev.filterSet f ∈ n.trace ∧ f.id = k ∧ doesMatch C f i.name = .ok true

theorem tabInv_prim {C : NodeConfig} {n n' : Node} (hi : Inv C n) (hp : Prim C n n') (ht : TabInv C n) : TabInv C n' := by
  have sh := prim_shape hp
  obtain ⟨evs, htr⟩ := shape_trace sh
  have mono : ∀ e ∈ n.trace, e ∈ n'.trace := fun e he => by rw [htr]; exact List.mem_append_left _ he
  have hargs := prim_args hp
  have cb : ∀ r ∈ cbRefs n.trace, r ∈ cbRefs n'.trace := fun r hr => by rw [htr, cbRefs_append]; exact List.mem_append_left _ hr
  have preg : ∀ g, (∃ r a q b b', n.args[r]? = some a ∧ a.handler = .register g q b b' ∧ r ∈ cbRefs n.trace) →
      ∃ r a q b b', n'.args[r]? = some a ∧ a.handler = .register g q b b' ∧ r ∈ cbRefs n'.trace := by
    rintro g ⟨r, a, q, b, b', h1, h2, h3⟩
    obtain ⟨t, e⟩ := hargs
    refine ⟨r, a, q, b, b', ?_, h2, cb r h3⟩
    rw [← e, List.getElem?_append_left (by exact (List.getElem?_eq_some_iff.mp h1).1)]
    exact h1
  have disp : ∀ i fs, Frame.dispatch i fs ∈ n'.stack → ∀ f ∈ fs, Ev.filterSet f ∈ n'.trace ∧ doesMatch C f i.name = .ok true := by
    intro i fs hm f hf
    have old : ∀ fs', Frame.dispatch i fs' ∈ n.stack → f ∈ fs' → Ev.filterSet f ∈ n'.trace ∧ doesMatch C f i.name = .ok true := fun fs' h1 h2 =>
      ⟨mono _ (ht.disp i fs' h1 f h2).1, (ht.disp i fs' h1 f h2).2⟩
    cases sh with
    | same h evs ht hq => exact old fs (h ▸ hm) hf
    | push g h hg evs ht' hq =>
      rw [h] at hm
      rcases List.mem_cons.mp hm with rfl | hm
      · have hg' : fs = n.filters.filter (fun f => decide (doesMatch C f i.name = .ok true)) := hg
        rw [hg'] at hf
        obtain ⟨h1, h2⟩ := List.mem_filter.mp hf
        exact ⟨mono _ (ht.set f h1), by simpa using h2⟩
      · exact old fs hm hf
    | pop g s h h' hd ht' => exact old fs (by rw [h]; exact List.mem_cons_of_mem _ (h' ▸ hm)) hf
    | adv g g' s evs h h' ha ht' =>
      have hm' : Frame.dispatch i fs ∈ g' :: s := by
        rcases h' with h' | h' <;> rw [h'] at hm
        · exact hm
        · rcases List.mem_cons.mp hm with hm | hm
          · cases hm
          · exact hm
      rcases List.mem_cons.mp hm' with rfl | hm'
      · cases ha with
        | dispatch _ f0 _ => exact old (f0 :: fs) (by rw [h]; exact List.mem_cons_self ..) (List.mem_cons_of_mem _ hf)
      · exact old fs (by rw [h]; exact List.mem_cons_of_mem _ hm') hf
  have call : ∀ k i, Ev.onInterest k i ∈ n'.trace → ∃ f, Ev.filterSet f ∈ n'.trace ∧ f.id = k ∧ doesMatch C f i.name = .ok true := by
    intro k i hm
    have old : Ev.onInterest k i ∈ n.trace → ∃ f, Ev.filterSet f ∈ n'.trace ∧ f.id = k ∧ doesMatch C f i.name = .ok true := by
      intro h
      obtain ⟨f, h1, h2, h3⟩ := ht.call k i h
      exact ⟨f, mono _ h1, h2, h3⟩
    have quiet : ∀ evs : List Ev, n'.trace = n.trace ++ evs → (∀ x ∈ evs, Quiet x) → ∃ f, Ev.filterSet f ∈ n'.trace ∧ f.id = k ∧ doesMatch C f i.name = .ok true := by
      intro evs h1 h2
      rw [h1] at hm
      rcases List.mem_append.mp hm with hm | hm
      · exact old hm
      · exact (h2 _ hm).elim
    cases sh with
    | same h evs ht hq => exact quiet evs ht hq
    | push g h hg evs ht' hq => exact quiet evs ht' hq
    | pop g s h h' hd ht' => exact old (ht' ▸ hm)
    | adv g g' s evs h h' ha ht' =>
      rw [ht'] at hm
      rcases List.mem_append.mp hm with hm | hm
      · exact old hm
      · cases ha with
        | deliver d r rest a ha evs he =>
          rcases List.mem_cons.mp hm with hm | hm
          · cases hm
          · exact (quiet_reg he _ hm).elim
        | deliverNone d r rest ha => cases hm
        | nack d r rest => rw [List.mem_singleton] at hm; cases hm
        | dispatch i' f rest =>
          rw [List.mem_singleton] at hm
          cases hm
          obtain ⟨h1, h2⟩ := ht.disp i (f :: rest) (by rw [h]; exact List.mem_cons_self ..) f (List.mem_cons_self ..)
          exact ⟨f, mono _ h1, rfl, h2⟩
  have fresh : ∀ f, Ev.filterSet f ∈ n.trace → f.id < n.lastId + 1 := fun f hf => Nat.lt_succ_of_le (ht.ids f hf).2.1
  cases prim_tables hp with
  | keep hf hpx hr hl htk he =>
    refine ⟨fun f h => mono _ (ht.set f (hf ▸ h)), fun f h => ?_, fun f g h h' => ht.uniq f g (he f h) (he g h'), fun f h g hg => ?_, fun p h h0 => ?_, fun p h => preg _ (ht.preg p (hpx ▸ h)), disp, call⟩
    · obtain ⟨h1, h2, h3⟩ := ht.ids f (he f h)
      refine ⟨h1, Nat.le_trans h2 hl, fun hm => ?_⟩
      rcases htk _ hm with hm | hm
      · exact h3 hm
      · omega
    · rw [hpx]; exact ht.owner f (hf ▸ h) g hg
    · obtain ⟨f, h1, h2⟩ := ht.pid p (hpx ▸ h) h0
      exact ⟨f, mono _ h1, h2⟩
  | set id p regex htk hf hpx hr hl htok he =>
    have hev : ∀ f, Ev.filterSet f ∈ n'.trace → Ev.filterSet f ∈ n.trace ∨ f = ⟨id, p, regex, none⟩ := by
      intro f h
      rw [he] at h
      rcases List.mem_append.mp h with h | h
      · exact .inl h
      · rw [List.mem_singleton] at h; cases h; exact .inr rfl
    have hnew : Ev.filterSet ⟨id, p, regex, none⟩ ∈ n'.trace := by rw [he]; exact List.mem_append_right _ (List.mem_singleton.mpr rfl)
    refine ⟨fun f h => ?_, fun f h => ?_, fun f g h h' hfg => ?_, fun f h g hg => ?_, fun p h h0 => ?_, fun p h => preg _ (ht.preg p (hpx ▸ h)), disp, call⟩
    · rw [hf] at h
      rcases List.mem_append.mp h with h | h
      · exact mono _ (ht.set f h)
      · rw [List.mem_singleton.mp h]; exact hnew
    · rw [hl, htok]
      rcases hev f h with h | rfl
      · obtain ⟨h1, h2, h3⟩ := ht.ids f h
        exact ⟨h1, h2, fun hm => h3 (List.erase_subset hm)⟩
      · have h1 := hi.id.once id
        have h2 := List.count_pos_iff.mpr htk
        have h3 := hi.id.bound id (by unfold idCount; omega)
        refine ⟨h3.1, h3.2, fun hm => ?_⟩
        have h4 := List.count_pos_iff.mpr hm
        simp only [List.count_erase_self] at h4
        unfold idCount at h1
        omega
    · rcases hev f h with h | rfl <;> rcases hev g h' with h' | rfl
      · exact ht.uniq f g h h' hfg
      · exact absurd (hfg ▸ htk) (ht.ids f h).2.2
      · exact absurd (hfg ▸ htk : g.id ∈ n.tokens) (ht.ids g h').2.2
      · rfl
    · rw [hpx]
      rw [hf] at h
      rcases List.mem_append.mp h with h | h
      · exact ht.owner f h g hg
      · rw [List.mem_singleton.mp h] at hg; cases hg
    · obtain ⟨f, h1, h2⟩ := ht.pid p (hpx ▸ h) h0
      exact ⟨f, mono _ h1, h2⟩
  | unset id h =>
    subst h
    exact ⟨fun f h => ht.set f (List.mem_filter.mp h).1, ht.ids, ht.uniq, fun f h => ht.owner f (List.mem_filter.mp h).1, ht.pid, ht.preg, disp, call⟩
  | removeReg id h =>
    subst h
    rw [removeRegistered_eq] at disp call ⊢
    refine ⟨fun f h => ht.set f (List.mem_filter.mp h).1, ht.ids, ht.uniq, fun f h g hg => ?_, fun p h => ht.pid p (List.mem_filter.mp h).1, fun p h => ht.preg p (List.mem_filter.mp h).1, disp, call⟩
    obtain ⟨h1, h2⟩ := List.mem_filter.mp h
    obtain ⟨p, hp1, hp2, hp3⟩ := ht.owner f h1 g hg
    refine ⟨p, List.mem_filter.mpr ⟨hp1, ?_⟩, hp2, hp3⟩
    simp only [decide_eq_true_eq] at h2 ⊢
    intro hpid
    have := (ht.ids f (ht.set f h1)).1
    exact h2 p (List.mem_filter.mpr ⟨hp1, by simp [hpid]⟩) (by omega) hp3.symm
  | register r x hx regId p b b' hh hr hcb he hl htk hreg =>
    have hids : ∀ f, Ev.filterSet f ∈ n'.trace → 0 < f.id ∧ f.id ≤ n'.lastId ∧ f.id ∉ n'.tokens := by
      intro f h
      rw [htk]
      rcases he f h with h | ⟨rfl, hlast⟩
      · obtain ⟨h1, h2, h3⟩ := ht.ids f h
        exact ⟨h1, Nat.le_trans h2 hl, h3⟩
      · refine ⟨Nat.succ_pos _, Nat.le_of_eq hlast.symm, fun hm => ?_⟩
        have := hi.base.tokens _ hm
        dsimp only at this
        omega
    have huniq : ∀ f g, Ev.filterSet f ∈ n'.trace → Ev.filterSet g ∈ n'.trace → f.id = g.id → f = g := by
      intro f g h h' hfg
      rcases he f h with h | ⟨rfl, h⟩ <;> rcases he g h' with h' | ⟨rfl, h'⟩
      · exact ht.uniq f g h h' hfg
      · have := fresh f h; dsimp only at hfg; omega
      · have := fresh g h'; dsimp only at hfg; omega
      · rfl
    have hreg0 : ∃ r a q b b', n'.args[r]? = some a ∧ a.handler = .register regId q b b' ∧ r ∈ cbRefs n'.trace := by
      obtain ⟨t, e⟩ := hargs
      have h1 : n.args[r]? = some x.args := by rw [args_get, hx]; rfl
      refine ⟨r, x.args, p, b, b', ?_, hh, hcb⟩
      rw [← e, List.getElem?_append_left (by exact (List.getElem?_eq_some_iff.mp h1).1)]
      exact h1
    have hpid : ∀ p ∈ n.prefixes, p.filterId ≠ 0 → ∃ f, Ev.filterSet f ∈ n'.trace ∧ f.id = p.filterId ∧ f.owner = some p.id := by
      intro p h h0
      obtain ⟨f, h1, h2⟩ := ht.pid p h h0
      exact ⟨f, mono _ h1, h2⟩
    cases hreg with
    | gone hr hrr hpx hf =>
      have hf' : ∀ f ∈ n'.filters, f ∈ n.filters := by
        intro f h
        rcases hf with hf | hf
        · exact hf ▸ h
        · rw [hf] at h
          obtain ⟨h1, h2⟩ := List.mem_filter.mp h
          rcases List.mem_append.mp h1 with h1 | h1
          · exact h1
          · rw [List.mem_singleton.mp h1] at h2; simp at h2
      exact ⟨fun f h => mono _ (ht.set f (hf' f h)), hids, huniq, fun f h g hg => by rw [hpx]; exact ht.owner f (hf' f h) g hg, fun p h => hpid p (hpx ▸ h), fun p h => preg _ (ht.preg p (hpx ▸ h)), disp, call⟩
    | plain hr hrr hf hpx =>
      refine ⟨fun f h => mono _ (ht.set f (hf ▸ h)), hids, huniq, fun f h g hg => ?_, fun p h h0 => ?_, fun p h => ?_, disp, call⟩
      · obtain ⟨p, h1, h2⟩ := ht.owner f (hf ▸ h) g hg
        exact ⟨p, by rw [hpx]; exact List.mem_append_left _ h1, h2⟩
      · rw [hpx] at h
        rcases List.mem_append.mp h with h | h
        · exact hpid p h h0
        · rw [List.mem_singleton.mp h] at h0; exact absurd rfl h0
      · rw [hpx] at h
        rcases List.mem_append.mp h with h | h
        · exact preg _ (ht.preg p h)
        · rw [List.mem_singleton.mp h]; exact hreg0
    | filter hr hrr hf hpx hl' hev =>
      refine ⟨fun f h => ?_, hids, huniq, fun f h g hg => ?_, fun p h h0 => ?_, fun p h => ?_, disp, call⟩
      · rw [hf] at h
        rcases List.mem_append.mp h with h | h
        · exact mono _ (ht.set f h)
        · rw [List.mem_singleton.mp h]; exact hev
      · rw [hf] at h
        rw [hpx]
        rcases List.mem_append.mp h with h | h
        · obtain ⟨p, h1, h2⟩ := ht.owner f h g hg
          exact ⟨p, List.mem_append_left _ h1, h2⟩
        · rw [List.mem_singleton.mp h] at hg ⊢
          cases hg
          exact ⟨_, List.mem_append_right _ (List.mem_singleton.mpr rfl), rfl, rfl⟩
      · rw [hpx] at h
        rcases List.mem_append.mp h with h | h
        · exact hpid p h h0
        · rw [List.mem_singleton.mp h]
          exact ⟨_, hev, rfl, rfl⟩
      · rw [hpx] at h
        rcases List.mem_append.mp h with h | h
        · exact preg _ (ht.preg p h)
        · rw [List.mem_singleton.mp h]; exact hreg0

theorem reachable_tabInv {C : NodeConfig} {n : Node} (h : Reachable C n) : TabInv C n :=
  reachable_induction' (P := TabInv C) ⟨by simp, by simp, by simp, by simp, by simp, by simp, by simp, by simp⟩ (fun _ _ hi hp ht => tabInv_prim hi hp ht) h

end Node
end PyNDN
