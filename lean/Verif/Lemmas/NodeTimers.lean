import Verif.Lemmas.NodeLoop
/-
The timers of a Node: the table of delayed calls and the timers of pending Interests.
-/
namespace PyNDN
namespace Node

theorem scheduledCalls_append (a b : List Ev) : scheduledCalls (a ++ b) = scheduledCalls a ++ scheduledCalls b := List.filterMap_append
theorem ranCalls_append (a b : List Ev) : ranCalls (a ++ b) = ranCalls a ++ ranCalls b := List.filterMap_append

theorem mem_scheduledCalls {t : List Ev} {k : Nat} {due : Int} : (k, due) ∈ scheduledCalls t ↔ Ev.scheduled k due ∈ t := by
  unfold scheduledCalls
  rw [List.mem_filterMap]
  constructor
  · rintro ⟨e, he, h⟩
    cases e <;> simp at h
    obtain ⟨rfl, rfl⟩ := h
    exact he
  · intro h
    exact ⟨_, h, rfl⟩

theorem mem_ranCalls {t : List Ev} {k : Nat} {now : Int} : (k, now) ∈ ranCalls t ↔ Ev.ran k now ∈ t := by
  unfold ranCalls
  rw [List.mem_filterMap]
  constructor
  · rintro ⟨e, he, h⟩
    cases e <;> simp at h
    obtain ⟨rfl, rfl⟩ := h
    exact he
  · intro h
    exact ⟨_, h, rfl⟩

/-- Neither `scheduled` nor `ran`. -/
def NoTimerEv : Ev → Prop
  | .scheduled _ _ => False
  | .ran _ _ => False
  | _ => True

theorem noTimer_nil {evs : List Ev} (h : ∀ x ∈ evs, NoTimerEv x) : scheduledCalls evs = [] ∧ ranCalls evs = [] := by
  unfold scheduledCalls ranCalls
  rw [List.filterMap_eq_nil_iff, List.filterMap_eq_nil_iff]
  constructor
  · intro e he
    have := h e he
    cases e <;> first | rfl | exact this.elim
  · intro e he
    have := h e he
    cases e <;> first | rfl | exact this.elim

theorem noTimer_reg {evs : List Ev} (h : ∀ x ∈ evs, RegEv x) : ∀ x ∈ evs, NoTimerEv x := by
  intro x hx
  rcases h x hx with ⟨r, rfl⟩ | ⟨r, rfl⟩ | ⟨f, rfl⟩ <;> trivial

/-- The table after `callLater` of an entry. -/
def Scheduled (C : NodeConfig) (n n' : Node) (e : DelayedEntry) : Prop :=
  (C.threadsafe = true ∧ n'.delayed = n.delayed ∧ n'.loopTimers = n.loopTimers ++ [e]) ∨
  (C.threadsafe = false ∧ n'.delayed = (insertDelayedRev e n.delayed.reverse).reverse ∧ n'.loopTimers = n.loopTimers)

/-- The table after a delayed call was taken from it. -/
def Taken (n n' : Node) (e : DelayedEntry) (now : Int) : Prop :=
  (n.delayed = e :: n'.delayed ∧ n'.loopTimers = n.loopTimers ∧ ∃ s, n.stack = .timers now :: s) ∨
  (n'.delayed = n.delayed ∧ ∃ k, n.loopTimers[k]? = some e ∧ n'.loopTimers = n.loopTimers.eraseIdx k)

/-- What a primitive change does to the timers. -/
inductive TShape (C : NodeConfig) (n n' : Node) : Prop
  | same (hd : n'.delayed = n.delayed) (hl : n'.loopTimers = n.loopTimers) (hs : n'.seq = n.seq)
      (ht : scheduledCalls n'.trace = scheduledCalls n.trace ∧ ranCalls n'.trace = ranCalls n.trace)
  | sched (e : DelayedEntry) (he : e.seq = n.seq) (hs : n'.seq = n.seq + 1)
      (ht : scheduledCalls n'.trace = scheduledCalls n.trace ++ [(e.seq, e.time)] ∧ ranCalls n'.trace = ranCalls n.trace)
      (hc : Scheduled C n n' e)
  | ran (e : DelayedEntry) (now : Int) (hle : e.time ≤ now) (hs : n'.seq = n.seq)
      (ht : scheduledCalls n'.trace = scheduledCalls n.trace ∧ ranCalls n'.trace = ranCalls n.trace ++ [(e.seq, now)])
      (hc : Taken n n' e now)
      (hp : ∀ r x, e.call = .timeout r → n.entries[r]? = some x → x.removed = false → r ∈ n.pit → n'.pit = n.pit.erase r)

theorem trace_quiet {n n' : Node} {evs : List Ev} (h : n'.trace = n.trace ++ evs) (hq : ∀ x ∈ evs, NoTimerEv x) :
    scheduledCalls n'.trace = scheduledCalls n.trace ∧ ranCalls n'.trace = ranCalls n.trace := by
  rw [h, scheduledCalls_append, ranCalls_append, (noTimer_nil hq).1, (noTimer_nil hq).2, List.append_nil, List.append_nil]
  exact ⟨rfl, rfl⟩

/-- What `helperCore` does to the timers. -/
theorem helperCore_timers (C : NodeConfig) (n : Node) (a : ExpressArgs) (o : Outcome) :
    ((n.helperCore C a o).delayed = n.delayed ∧ (n.helperCore C a o).loopTimers = n.loopTimers ∧ (n.helperCore C a o).seq = n.seq ∧
      (∃ evs, (n.helperCore C a o).trace = n.trace ++ evs ∧ ∀ x ∈ evs, NoTimerEv x) ∧
      (o = .removed ∨ ¬ (a.hasOnTimeout = true ∨ a.interest.lifetime ≠ none))) ∨
    (∃ e, e = (⟨n.now + ((a.interest.lifetime.getD 4000 : Nat) : Int), n.seq, .timeout n.entries.length⟩ : DelayedEntry) ∧ (n.helperCore C a o).seq = n.seq + 1 ∧
      (n.helperCore C a o).trace = n.trace ++ [.scheduled e.seq e.time, .helper a.id o] ∧ Scheduled C n (n.helperCore C a o) e ∧ o ≠ .removed) := by
  unfold helperCore
  split
  · next h => exact .inl ⟨rfl, rfl, rfl, ⟨[.helper a.id o], rfl, fun x hx => by rw [List.mem_singleton.mp hx]; trivial⟩, .inl h⟩
  · next h =>
    unfold addEntry
    dsimp only
    split
    · refine .inr ⟨_, rfl, ?_⟩
      obtain ⟨dl, lt, e, hc⟩ := callLater_form C { (n.consume a) with entries := n.entries ++ [(⟨a, false, n.now⟩ : PitEntry)], pit := n.pit ++ [n.entries.length] } (((a.interest.lifetime.getD 4000 : Nat) : Int)) (.timeout n.entries.length)
      refine ⟨?_, ?_, ?_, h⟩
      · exact congrArg (fun m => (m.emit (.helper a.id o)).seq) e
      · refine (congrArg (fun m => (m.emit (.helper a.id o)).trace) e).trans ?_
        simp [emit, consume]
      · have h1 := congrArg (fun m => (m.emit (.helper a.id o)).delayed) e
        have h2 := congrArg (fun m => (m.emit (.helper a.id o)).loopTimers) e
        rcases hc with ⟨c1, c2, c3⟩ | ⟨c1, c2, c3⟩
        · exact .inl ⟨c1, h1.trans c2, h2.trans c3⟩
        · exact .inr ⟨c1, h1.trans c2, h2.trans c3⟩
    · next hn =>
      exact .inl ⟨rfl, rfl, rfl, ⟨[.helper a.id o], rfl, fun x hx => by rw [List.mem_singleton.mp hx]; trivial⟩, .inr hn⟩

theorem prim_timers {C : NodeConfig} {n n' : Node} (h : Prim C n n') : TShape C n n' := by
  have same : ∀ m : Node, m.delayed = n.delayed → m.loopTimers = n.loopTimers → m.seq = n.seq → m.trace = n.trace → TShape C n m :=
    fun m h1 h2 h3 h4 => .same h1 h2 h3 (by rw [h4]; exact ⟨rfl, rfl⟩)
  have one : ∀ e : Ev, NoTimerEv e → ∀ x ∈ [e], NoTimerEv x := fun e he x hx => by rw [List.mem_singleton.mp hx]; exact he
  have run : ∀ (m : Node) (e : DelayedEntry) (now : Int), e.time ≤ now → m.seq = n.seq → m.trace = n.trace → m.entries = n.entries → m.pit = n.pit →
      Taken n m e now → TShape C n (m.runDelayed e now) := by
    intro m e now hle h1 h2 h3 h4 hc
    have tr : ∀ evs, (∀ x ∈ evs, NoTimerEv x) → scheduledCalls (m.trace ++ [Ev.ran e.seq now] ++ evs) = scheduledCalls n.trace ∧
        ranCalls (m.trace ++ [Ev.ran e.seq now] ++ evs) = ranCalls n.trace ++ [(e.seq, now)] := by
      intro evs hq
      rw [scheduledCalls_append, scheduledCalls_append, ranCalls_append, ranCalls_append, (noTimer_nil hq).1, (noTimer_nil hq).2, h2]
      simp [scheduledCalls, ranCalls]
    have tr0 := tr [] (by simp)
    rw [List.append_nil] at tr0
    rcases runDelayed_form m e now with ⟨_, e'⟩ | ⟨r, _, _, e'⟩ | ⟨r, x, _, hx, hr, hp, ⟨_, e'⟩ | ⟨_, evs, hevs, e'⟩⟩
    · next hcall =>
      rw [e']; exact .ran e now hle h1 tr0 hc (fun r x hx => by rw [hcall] at hx; cases hx)
    · next hcall hno =>
      rw [e']; refine .ran e now hle h1 tr0 hc (fun r' x hx hx2 hx3 hx4 => ?_)
      rw [hcall] at hx; cases hx
      rcases hno x (h3 ▸ hx2) with h | h
      · rw [hx3] at h; cases h
      · exact absurd (h4 ▸ hx4) h
    · next hcall _ =>
      rw [e']; refine .ran e now hle h1 tr0 hc (fun r' x hx hx2 hx3 hx4 => ?_)
      rw [hcall] at hx; cases hx
      show m.pit.erase r = _; rw [h4]
    · next hcall _ =>
      rw [e']
      refine .ran e now hle h1 ?_ hc (fun r' x hx hx2 hx3 hx4 => by
        rw [hcall] at hx; cases hx
        show m.pit.erase r = _; rw [h4])
      have := tr ([.onTimeout x.args.id r] ++ evs) (fun y hy => by
        rcases List.mem_append.mp hy with hy | hy
        · exact one (.onTimeout x.args.id r) trivial y hy
        · exact noTimer_reg hevs y hy)
      rw [← List.append_assoc] at this
      exact this
  have helper : ∀ (m : Node) (a : ExpressArgs) (o : Outcome) (evs : List Ev), m.delayed = n.delayed → m.loopTimers = n.loopTimers → m.seq = n.seq →
      m.trace = n.trace ++ evs → (∀ x ∈ evs, NoTimerEv x) → TShape C n (m.helperCore C a o) := by
    intro m a o evs h1 h2 h3 h4 h5
    have hq := trace_quiet h4 h5
    rcases helperCore_timers C m a o with ⟨x1, x2, x3, ⟨evs', x4, x5⟩, _⟩ | ⟨e, he, x1, x2, x3, _⟩
    · refine .same (x1.trans h1) (x2.trans h2) (x3.trans h3) ?_
      have := trace_quiet x4 x5
      exact ⟨this.1.trans hq.1, this.2.trans hq.2⟩
    · refine .sched e (by rw [he]; exact h3) (by rw [x1, h3]) ?_ ?_
      · rw [x2, scheduledCalls_append, ranCalls_append, hq.1, hq.2]
        simp [scheduledCalls, ranCalls]
      · unfold Scheduled at *
        rw [h1, h2] at x3
        exact x3
  cases h with
  | misc => exact same _ rfl rfl rfl rfl
  | push f ho hf => exact same _ rfl rfl rfl rfl
  | drop f s h hd hm => exact same _ rfl rfl rfl rfl
  | setComplete s h => exact same _ rfl rfl rfl rfl
  | callData d r rest s h =>
    rcases callOnData_form { n with stack := .deliver d rest :: s } r d with ⟨hn, e⟩ | ⟨x, hx, k, fs, ps, rr, evs, st, e, hevs, hst, _⟩
    · rw [e]; exact same _ rfl rfl rfl rfl
    · rw [e]
      refine .same rfl rfl rfl (trace_quiet (evs := [.onData x.args.id r d] ++ evs) (by simp) ?_)
      intro y hy
      rcases List.mem_append.mp hy with hy | hy
      · exact one (.onData x.args.id r d) trivial y hy
      · exact noTimer_reg hevs y hy
  | callNack k r rest s h => exact .same rfl rfl rfl (trace_quiet (evs := [_]) rfl (one (.onNack (n.idOf r) r k) trivial))
  | callFilter i f rest s h => exact .same rfl rfl rfl (trace_quiet (evs := [_]) rfl (one (.onInterest f.id i) trivial))
  | takeData d n' taken ha hx => rw [(extract_eq hx).2]; exact same _ rfl rfl rfl rfl
  | takeNack k w n' taken ha hx => rw [(extract_eq hx).2]; exact same _ rfl rfl rfl rfl
  | takeLost p n' taken hx => rw [(extract_eq hx).2]; exact same _ rfl rfl rfl rfl
  | timer now e es s h hd hle => exact run { n with delayed := es } e now hle rfl rfl rfl rfl (.inl ⟨hd, rfl, s, h⟩)
  | fire k e ha hk hle => exact run { n with loopTimers := n.loopTimers.eraseIdx k } e n.now hle rfl rfl rfl rfl (.inr ⟨rfl, k, hk, rfl⟩)
  | alloc => exact same _ rfl rfl rfl rfl
  | exprDirect a o htk hst ho => exact helper (n.emit (.called a.id)) a o [_] rfl rfl rfl rfl (one (.called a.id) trivial)
  | exprQueue a c htk hst ha => exact .same rfl rfl rfl (trace_quiet (evs := [_]) rfl (one (.called a.id) trivial))
  | exprFail a htk ha => exact .same rfl rfl rfl (trace_quiet (evs := [_]) rfl (one (.called a.id) trivial))
  | runQueue a o s h hq ho => exact helper { n with next := n.next + 1 } a o [] rfl rfl rfl (by simp) (by simp)
  | queueDone s h hq => exact same _ rfl rfl rfl rfl
  | removePending id => rw [removePending_eq]; exact same _ rfl rfl rfl rfl
  | removeRegistered id => rw [removeRegistered_eq]; exact same _ rfl rfl rfl rfl
  | setFilter id p r htk => exact .same rfl rfl rfl (trace_quiet (evs := [_]) rfl (one _ trivial))
  | unset id => exact same _ rfl rfl rfl rfl
  | dispatch i fs hm ho => exact same _ rfl rfl rfl rfl
  | later d =>
    obtain ⟨dl, lt, e, hc⟩ := callLater_form C n d .app
    rw [e]
    refine .sched ⟨n.now + d, n.seq, .app⟩ rfl rfl ?_ hc
    simp [scheduledCalls, ranCalls]
  | note e he => rcases he with ⟨w, rfl, _⟩ | ⟨i, rfl⟩ | rfl | rfl | ⟨j, rfl⟩ <;> exact .same rfl rfl rfl (trace_quiet (evs := [_]) rfl (one _ trivial))

/-- Before: due earlier, or at the same time and scheduled earlier. -/
def Before (a b : DelayedEntry) : Prop := a.time < b.time ∨ (a.time = b.time ∧ a.seq < b.seq)

structure TimerInv (C : NodeConfig) (n : Node) : Prop where
  sched : (scheduledCalls n.trace).map (·.1) = List.range n.seq
  keep : ∀ k, (n.delayed.map (·.seq)).count k + (n.loopTimers.map (·.seq)).count k + ((ranCalls n.trace).map (·.1)).count k = (List.range n.seq).count k
  table : ∀ e, e ∈ n.delayed ∨ e ∈ n.loopTimers → (e.seq, e.time) ∈ scheduledCalls n.trace
  early : ∀ k now, (k, now) ∈ ranCalls n.trace → ∃ due, (k, due) ∈ scheduledCalls n.trace ∧ due ≤ now
  sorted : n.delayed.Pairwise Before
  loop : C.threadsafe = false → n.loopTimers = []

theorem insertRev_perm (e : DelayedEntry) (l : List DelayedEntry) : (insertDelayedRev e l).Perm (e :: l) := by
  induction l with
  | nil => exact .refl _
  | cons x l ih =>
    unfold insertDelayedRev
    split
    · exact .refl _
    · exact (ih.cons x).trans (.swap e x l)

theorem insert_perm (e : DelayedEntry) (l : List DelayedEntry) : ((insertDelayedRev e l.reverse).reverse).Perm (e :: l) :=
  (List.reverse_perm _).trans ((insertRev_perm e _).trans ((List.reverse_perm l).cons e))

theorem insertRev_sorted (e : DelayedEntry) (l : List DelayedEntry) (hs : l.Pairwise (fun a b => Before b a)) (hlt : ∀ x ∈ l, x.seq < e.seq) :
    (insertDelayedRev e l).Pairwise (fun a b => Before b a) := by
  induction l with
  | nil => exact List.pairwise_singleton _ _
  | cons x l ih =>
    rw [List.pairwise_cons] at hs
    have hx := hlt x (List.mem_cons_self ..)
    unfold insertDelayedRev
    split
    · next hle =>
      refine List.pairwise_cons.mpr ⟨?_, List.pairwise_cons.mpr hs⟩
      intro y hy
      have xe : Before x e := by unfold Before; omega
      rcases List.mem_cons.mp hy with rfl | hy
      · exact xe
      · have h1 := hs.1 y hy
        have h2 := hlt y (List.mem_cons_of_mem _ hy)
        unfold Before at *
        omega
    · next hle =>
      refine List.pairwise_cons.mpr ⟨?_, ih hs.2 (fun y hy => hlt y (List.mem_cons_of_mem _ hy))⟩
      intro y hy
      rcases List.mem_cons.mp ((insertRev_perm e l).mem_iff.mp hy) with rfl | hy
      · unfold Before; omega
      · exact hs.1 y hy

theorem count_eraseIdx {l : List DelayedEntry} {k : Nat} {e : DelayedEntry} (h : l[k]? = some e) (i : Nat) :
    (l.map (·.seq)).count i = ((l.eraseIdx k).map (·.seq)).count i + [e.seq].count i := by
  induction l generalizing k with
  | nil => simp at h
  | cons x l ih =>
    cases k with
    | zero =>
      simp only [List.getElem?_cons_zero, Option.some.injEq] at h
      subst h
      simp [List.count_cons]
    | succ k =>
      simp only [List.getElem?_cons_succ] at h
      have := ih h
      simp only [List.map_cons, List.eraseIdx_cons_succ, List.count_cons] at this ⊢
      omega

theorem mem_eraseIdx' {l : List DelayedEntry} {k : Nat} {x : DelayedEntry} (h : x ∈ l.eraseIdx k) : x ∈ l := (List.eraseIdx_sublist l k).subset h

theorem timerInv_prim {C : NodeConfig} {n n' : Node} (h : Prim C n n') (hi : TimerInv C n) : TimerInv C n' := by
  obtain ⟨i1, i2, i3, i4, i5, i6⟩ := hi
  have lt : ∀ e, e ∈ n.delayed ∨ e ∈ n.loopTimers → e.seq < n.seq := by
    intro e he
    have := List.mem_map_of_mem (f := (·.1)) (i3 e he)
    rw [i1] at this
    exact List.mem_range.mp this
  cases prim_timers h with
  | same hd hl hs ht =>
    refine ⟨?_, ?_, ?_, ?_, ?_, ?_⟩
    · rw [ht.1, hs]; exact i1
    · rw [hd, hl, hs, ht.2]; exact i2
    · rw [hd, hl, ht.1]; exact i3
    · rw [ht.1, ht.2]; exact i4
    · rw [hd]; exact i5
    · rw [hl]; exact i6
  | sched e he hs ht hc =>
    have mono : ∀ x, x ∈ scheduledCalls n.trace → x ∈ scheduledCalls n'.trace := fun x hx => by rw [ht.1]; exact List.mem_append_left _ hx
    refine ⟨?_, ?_, ?_, ?_, ?_, ?_⟩
    · rw [ht.1, hs, List.map_append, i1, List.range_succ, he]; rfl
    · intro k
      rw [ht.2, hs, List.range_succ, List.count_append]
      have h2 := i2 k
      rcases hc with ⟨_, c2, c3⟩ | ⟨_, c2, c3⟩
      · rw [c2, c3, List.map_append, List.count_append]
        simp only [List.map_cons, List.map_nil, he]
        omega
      · rw [c2, c3, ((insert_perm e n.delayed).map (·.seq)).count_eq k, List.map_cons, List.count_cons, List.count_singleton, he]
        split <;> omega
    · intro x hx
      have : x = e ∨ (x ∈ n.delayed ∨ x ∈ n.loopTimers) := by
        rcases hc with ⟨_, c2, c3⟩ | ⟨_, c2, c3⟩
        · rw [c2, c3] at hx
          rcases hx with hx | hx
          · exact .inr (.inl hx)
          · rcases List.mem_append.mp hx with hx | hx
            · exact .inr (.inr hx)
            · exact .inl (List.mem_singleton.mp hx)
        · rw [c2, c3] at hx
          rcases hx with hx | hx
          · rcases List.mem_cons.mp ((insert_perm e n.delayed).mem_iff.mp hx) with rfl | hx
            · exact .inl rfl
            · exact .inr (.inl hx)
          · exact .inr (.inr hx)
      rcases this with rfl | hx
      · rw [ht.1]; exact List.mem_append_right _ (List.mem_singleton.mpr rfl)
      · exact mono _ (i3 x hx)
    · intro k now hk
      rw [ht.2] at hk
      obtain ⟨due, h1, h2⟩ := i4 k now hk
      exact ⟨due, mono _ h1, h2⟩
    · rcases hc with ⟨_, c2, c3⟩ | ⟨_, c2, c3⟩
      · rw [c2]; exact i5
      · rw [c2, List.pairwise_reverse]
        refine insertRev_sorted e _ (List.pairwise_reverse.mpr i5) (fun x hx => ?_)
        rw [he]
        exact lt x (.inl (List.mem_reverse.mp hx))
    · intro hth
      rcases hc with ⟨c1, c2, c3⟩ | ⟨_, c2, c3⟩
      · rw [hth] at c1; cases c1
      · rw [c3]; exact i6 hth
  | ran e now hle hs ht hc _ =>
    have mem : e ∈ n.delayed ∨ e ∈ n.loopTimers := by
      rcases hc with ⟨c1, _⟩ | ⟨_, k, c1, _⟩
      · rw [c1]; exact .inl (List.mem_cons_self ..)
      · exact .inr (List.mem_of_getElem? c1)
    refine ⟨?_, ?_, ?_, ?_, ?_, ?_⟩
    · rw [ht.1, hs]; exact i1
    · intro k
      have h2 := i2 k
      rw [ht.2, hs, List.map_append, List.count_append]
      rcases hc with ⟨c1, c2, _⟩ | ⟨c2, j, c1, c3⟩
      · rw [c1, List.map_cons, List.count_cons] at h2
        rw [c2]
        simp only [List.map_cons, List.map_nil, List.count_singleton]
        split at h2 <;> split <;> simp_all <;> omega
      · have := count_eraseIdx c1 k
        rw [c2, c3]
        simp only [List.map_cons, List.map_nil]
        omega
    · intro x hx
      rw [ht.1]
      refine i3 x ?_
      rcases hc with ⟨c1, c2, _⟩ | ⟨c2, j, c1, c3⟩
      · rw [c1]; rw [c2] at hx
        rcases hx with hx | hx
        · exact .inl (List.mem_cons_of_mem _ hx)
        · exact .inr hx
      · rw [c2, c3] at hx
        rcases hx with hx | hx
        · exact .inl hx
        · exact .inr (mem_eraseIdx' hx)
    · intro k t hk
      rw [ht.2] at hk
      rw [ht.1]
      rcases List.mem_append.mp hk with hk | hk
      · exact i4 k t hk
      · cases List.mem_singleton.mp hk
        exact ⟨e.time, i3 e mem, hle⟩
    · rcases hc with ⟨c1, c2, _⟩ | ⟨c2, j, c1, c3⟩
      · rw [c1] at i5; exact (List.pairwise_cons.mp i5).2
      · rw [c2]; exact i5
    · intro hth
      have := i6 hth
      rcases hc with ⟨c1, c2, _⟩ | ⟨c2, j, c1, c3⟩
      · rw [c2]; exact this
      · rw [this] at c1; simp at c1

theorem timerInv_init (C : NodeConfig) : TimerInv C {} :=
  ⟨rfl, fun k => by simp [ranCalls], fun e h => by simp at h, fun k t h => by simp [ranCalls] at h, List.Pairwise.nil, fun _ => rfl⟩

theorem reachable_timerInv {C : NodeConfig} {n : Node} (h : Reachable C n) : TimerInv C n :=
  reachable_induction (timerInv_init C) (fun _ _ _ hp hi => timerInv_prim hp hi) h

end Node
end PyNDN
