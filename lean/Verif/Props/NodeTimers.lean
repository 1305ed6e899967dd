import Verif.Lemmas.NodeTimers
/-
C32: delayed calls run in time order, once, never early.
-/
namespace PyNDN
namespace Node

/-- Each `callLater` has its own number. -/
theorem scheduled_unique {C : NodeConfig} {n : Node} (hi : TimerInv C n) {k : Nat} {d d' : Int} (h : (k, d) ∈ scheduledCalls n.trace)
    (h' : (k, d') ∈ scheduledCalls n.trace) : d = d' := by
  have hn : ((scheduledCalls n.trace).map (·.1)).Nodup := by rw [hi.sched]; exact List.nodup_range
  revert h h' hn
  generalize scheduledCalls n.trace = l
  induction l with
  | nil => intro h; cases h
  | cons x l ih =>
    intro h h' hn
    rw [List.map_cons, List.nodup_cons] at hn
    rcases List.mem_cons.mp h with g | g <;> rcases List.mem_cons.mp h' with g' | g'
    · rw [← g] at g'; cases g'; rfl
    · subst g; exact absurd (List.mem_map.mpr ⟨(k, d'), g', rfl⟩) hn.1
    · subst g'; exact absurd (List.mem_map.mpr ⟨(k, d), g, rfl⟩) hn.1
    · exact ih g g' hn.2

/-- In every execution: each delayed call is scheduled once and run at most once, it is run only if it was
scheduled, and not before its due time on the clock that `callTimedOut` (or the event loop) read. -/
theorem C32_once_never_early (C : NodeConfig) (as : List Action) (k : Nat) :
    let t := (run C {} as).trace
    ((scheduledCalls t).map (·.1)).count k ≤ 1 ∧ ((ranCalls t).map (·.1)).count k ≤ 1 ∧
    ∀ now, (k, now) ∈ ranCalls t → ∃ due, (k, due) ∈ scheduledCalls t ∧ due ≤ now := by
  have hi := reachable_timerInv (C := C) ⟨as, rfl⟩
  generalize run C {} as = n at hi
  have h1 : (List.range n.seq).count k ≤ 1 := List.nodup_iff_count.mp List.nodup_range _
  refine ⟨by rw [hi.sched]; exact h1, ?_, hi.early k⟩
  have := hi.keep k
  omega

/-- What is scheduled and not run is on the table (of a face that is not a ThreadsafeFace). -/
theorem waiting_table {C : NodeConfig} {n : Node} (hi : TimerInv C n) (hc : C.threadsafe = false) {k : Nat} {due : Int} (h : (k, due) ∈ scheduledCalls n.trace)
    (hr : ∀ now, (k, now) ∉ ranCalls n.trace) : ∃ c, (⟨due, k, c⟩ : DelayedEntry) ∈ n.delayed := by
  have h1 := hi.keep k
  have h2 : (List.range n.seq).count k = 1 := by
    have : k ∈ List.range n.seq := by rw [← hi.sched]; exact List.mem_map_of_mem (f := (·.1)) h
    have h3 := List.count_pos_iff.mpr this
    have h4 : (List.range n.seq).count k ≤ 1 := List.nodup_iff_count.mp List.nodup_range _
    omega
  have h3 : ((ranCalls n.trace).map (·.1)).count k = 0 := by
    rw [List.count_eq_zero]
    intro hm
    obtain ⟨⟨k', now⟩, hm', rfl⟩ := List.mem_map.mp hm
    exact hr now hm'
  rw [hi.loop hc] at h1
  rw [h2, h3, List.map_nil, List.count_nil] at h1
  have h4 : k ∈ n.delayed.map (·.seq) := List.count_pos_iff.mp (by omega)
  obtain ⟨e, he, rfl⟩ := List.mem_map.mp h4
  have := hi.table e (.inl he)
  have e1 := scheduled_unique hi h this
  subst e1
  exact ⟨e.call, he⟩

theorem not_ran_of_table {C : NodeConfig} {n : Node} (hi : TimerInv C n) {e : DelayedEntry} (h : e ∈ n.delayed) (now : Int) : (e.seq, now) ∉ ranCalls n.trace := by
  intro hm
  have h1 := hi.keep e.seq
  have h2 : (List.range n.seq).count e.seq ≤ 1 := List.nodup_iff_count.mp List.nodup_range _
  have h3 := List.count_pos_iff.mpr (List.mem_map_of_mem (f := (·.seq)) h)
  have h4 := List.count_pos_iff.mpr (List.mem_map_of_mem (f := (·.1)) hm)
  dsimp only at h4
  omega

theorem lib_timers {C : NodeConfig} {n : Node} {t : Int} {s : List Frame} (hst : n.stack = .timers t :: s) (b : Bool) :
    (∃ e es, n.delayed = e :: es ∧ e.time ≤ t ∧ n.step C (.lib b) = { n with delayed := es }.runDelayed e t) ∨
    ((∀ e es, n.delayed = e :: es → t < e.time) ∧ n.step C (.lib b) = { n with stack := s }) := by
  unfold step
  rw [hst]
  dsimp only
  unfold lib
  rw [hst]
  dsimp only
  cases hd : n.delayed with
  | nil => exact .inr ⟨(fun e es h => by cases h), rfl⟩
  | cons e es =>
    dsimp only
    split
    · next h => exact .inl ⟨e, es, rfl, h, rfl⟩
    · next h => exact .inr ⟨(fun e' es' h' => by cases h'; omega), rfl⟩

theorem runDelayed_grow (n : Node) (e : DelayedEntry) (now : Int) : ∃ evs, (n.runDelayed e now).trace = n.trace ++ [.ran e.seq now] ++ evs ∧ (∀ x ∈ evs, NoTimerEv x) ∧
    ((n.runDelayed e now).stack = n.stack ∨ ∃ c, c ≠ .main ∧ (n.runDelayed e now).stack = .app c :: n.stack) ∧ (n.runDelayed e now).delayed = n.delayed ∧
    (n.runDelayed e now).now = n.now := by
  rcases runDelayed_form n e now with ⟨_, e'⟩ | ⟨r, _, _, e'⟩ | ⟨r, x, _, hx, hr, hp, ⟨_, e'⟩ | ⟨_, evs, hevs, e'⟩⟩
  · rw [e']; exact ⟨[], (List.append_nil _).symm, by simp, .inr ⟨.unguarded, by simp, rfl⟩, rfl, rfl⟩
  · rw [e']; exact ⟨[], (List.append_nil _).symm, by simp, .inl rfl, rfl, rfl⟩
  · rw [e']; exact ⟨[], (List.append_nil _).symm, by simp, .inl rfl, rfl, rfl⟩
  · rw [e']
    refine ⟨[.onTimeout x.args.id r] ++ evs, by simp, ?_, .inr ⟨.guarded, by simp, rfl⟩, rfl, rfl⟩
    intro y hy
    rcases List.mem_append.mp hy with hy | hy
    · rw [List.mem_singleton.mp hy]; trivial
    · exact noTimer_reg hevs y hy

/-- When `callTimedOut` returns (its loop ends, and it was not left by an exception), every call that is due at the
time that it read has been run; also those scheduled meanwhile. -/
theorem C32_all_due_run {C : NodeConfig} {n : Node} (hr : Reachable C n) (hc : C.threadsafe = false) {t : Int} {s : List Frame} {b : Bool}
    (hst : n.stack = .timers t :: s) (hend : (n.step C (.lib b)).stack = s) :
    ∀ k due, (k, due) ∈ scheduledCalls (n.step C (.lib b)).trace → due ≤ t → ∃ now, (k, now) ∈ ranCalls (n.step C (.lib b)).trace := by
  have hi := reachable_timerInv hr
  rcases lib_timers (C := C) hst b with ⟨e, es, h1, h2, h3⟩ | ⟨h1, h2⟩
  · exfalso
    rw [h3] at hend
    obtain ⟨_, _, _, h5, _⟩ := runDelayed_grow { n with delayed := es } e t
    have := congrArg List.length hend
    rcases h5 with h5 | ⟨c, _, h5⟩ <;> rw [h5] at this <;> simp [hst] at this
    omega
  · intro k due hk hdue
    rw [h2] at hk ⊢
    by_cases hx : ∃ now, (k, now) ∈ ranCalls n.trace
    · exact hx
    · exfalso
      obtain ⟨c, hm⟩ := waiting_table hi hc hk (fun now h => hx ⟨now, h⟩)
      cases hd : n.delayed with
      | nil => rw [hd] at hm; cases hm
      | cons e es =>
        have h3 := h1 e es hd
        rw [hd] at hm
        rcases List.mem_cons.mp hm with h | h
        · subst h; dsimp only at h3; omega
        · have h4 := (List.pairwise_cons.mp (hd ▸ hi.sorted)).1 _ h
          unfold Before at h4
          dsimp only at h4
          omega

/-- Whenever `callTimedOut` runs a call, it is the one due first of all that were scheduled and not run, and the one
scheduled first of those due at the same time. -/
theorem C32_order {C : NodeConfig} {n : Node} (hr : Reachable C n) (hc : C.threadsafe = false) {t : Int} {s : List Frame} {b : Bool}
    (hst : n.stack = .timers t :: s) {k : Nat} {due : Int} (hk : (k, due) ∈ scheduledCalls n.trace) (hn : ∀ now, (k, now) ∉ ranCalls n.trace)
    (hran : ∃ now, (k, now) ∈ ranCalls (n.step C (.lib b)).trace) :
    ∀ k' due', (k', due') ∈ scheduledCalls n.trace → (∀ now, (k', now) ∉ ranCalls n.trace) → k' ≠ k → due < due' ∨ (due = due' ∧ k < k') := by
  have hi := reachable_timerInv hr
  rcases lib_timers (C := C) hst b with ⟨e, es, h1, h2, h3⟩ | ⟨h1, h2⟩
  · obtain ⟨evs, h4, h5, _⟩ := runDelayed_grow { n with delayed := es } e t
    obtain ⟨now, hran⟩ := hran
    rw [h3, h4, ranCalls_append, ranCalls_append, (noTimer_nil h5).2, List.append_nil] at hran
    have hke : k = e.seq := by
      rcases List.mem_append.mp hran with h | h
      · exact absurd h (hn now)
      · simp [ranCalls] at h; exact h.1
    subst hke
    have hdue : due = e.time := scheduled_unique hi hk (hi.table e (.inl (by rw [h1]; exact List.mem_cons_self ..)))
    subst hdue
    intro k' due' h6 h7 h8
    obtain ⟨c, hm⟩ := waiting_table hi hc h6 h7
    rw [h1] at hm
    rcases List.mem_cons.mp hm with h | h
    · rw [← h] at h8; exact absurd rfl h8
    · have h9 : Before e ⟨due', k', c⟩ := (List.pairwise_cons.mp (h1 ▸ hi.sorted)).1 _ h
      exact h9
  · rw [h2] at hran
    obtain ⟨now, h⟩ := hran
    exact absurd h (hn now)

theorem run_append (C : NodeConfig) (n : Node) (as bs : List Action) : n.run C (as ++ bs) = (n.run C as).run C bs := by
  induction as generalizing n with
  | nil => rfl
  | cons a as ih => exact ih _

/-- Processing of the timers when the callbacks do nothing: it runs, each once and in order of due time (ties in
order of registration), exactly the calls that are due and were not run; and then returns. -/
theorem C32_process {C : NodeConfig} {n : Node} (hr : Reachable C n) (hc : C.threadsafe = false) (ha : n.appRuns) :
    ∃ (as : List Action) (l : List (Nat × Int)), (∀ a ∈ as, a = Action.lib true ∨ a = .ret) ∧ (n.run C (.callTimedOut :: as)).stack = n.stack ∧
      ranCalls (n.run C (.callTimedOut :: as)).trace = ranCalls n.trace ++ l.map (fun x => (x.1, n.now)) ∧
      (∀ k due, (k, due) ∈ l ↔ (k, due) ∈ scheduledCalls n.trace ∧ due ≤ n.now ∧ ∀ now, (k, now) ∉ ranCalls n.trace) ∧
      l.Pairwise (fun x y => x.2 < y.2 ∨ (x.2 = y.2 ∧ x.1 < y.1)) := by
  obtain ⟨c, s, hst⟩ := ha
  have hi := reachable_timerInv hr
  -- the loop
  have loop : ∀ (dl : List DelayedEntry) (m : Node), m.delayed = dl → dl.Pairwise Before → m.stack = .timers n.now :: n.stack →
      ∃ as, (∀ a ∈ as, a = Action.lib true ∨ a = .ret) ∧ (m.run C as).stack = n.stack ∧
        ranCalls (m.run C as).trace = ranCalls m.trace ++ (dl.filter (fun e => e.time ≤ n.now)).map (fun e => (e.seq, n.now)) := by
    intro dl
    induction dl with
    | nil =>
      intro m hd _ hs
      refine ⟨[.lib true], by simp, ?_⟩
      rcases lib_timers (C := C) hs true with ⟨e, es, h1, _⟩ | ⟨_, h2⟩
      · rw [hd] at h1; cases h1
      · show (m.step C (.lib true)).stack = _ ∧ ranCalls (m.step C (.lib true)).trace = _
        rw [h2]
        exact ⟨rfl, by simp⟩
    | cons x dl ih =>
      intro m hd hsort hs
      rw [List.pairwise_cons] at hsort
      rcases lib_timers (C := C) hs true with ⟨e, es, h1, h2, h3⟩ | ⟨h1, h2⟩
      · rw [hd] at h1
        cases h1
        obtain ⟨evs, h4, h5, h6, h7, h8⟩ := runDelayed_grow { m with delayed := dl } x n.now
        have ht : ranCalls (m.step C (.lib true)).trace = ranCalls m.trace ++ [(x.seq, n.now)] := by
          rw [h3, h4, ranCalls_append, ranCalls_append, (noTimer_nil h5).2, List.append_nil]; rfl
        have hf : ((x :: dl).filter (fun e => e.time ≤ n.now)).map (fun e => (e.seq, n.now)) = (x.seq, n.now) :: (dl.filter (fun e => e.time ≤ n.now)).map (fun e => (e.seq, n.now)) := by
          rw [List.filter_cons_of_pos (by simpa using h2)]; rfl
        rcases h6 with h6 | ⟨c', hc', h6⟩
        · obtain ⟨as, a1, a2, a3⟩ := ih (m.step C (.lib true)) (by rw [h3]; exact h7) hsort.2 (by rw [h3, h6]; exact hs)
          refine ⟨.lib true :: as, ?_, a2, ?_⟩
          · intro a h; rcases List.mem_cons.mp h with rfl | h; exact .inl rfl; exact a1 a h
          · show ranCalls ((m.step C (.lib true)).run C as).trace = _
            rw [a3, ht, hf]; simp
        · have hst' : (m.step C (.lib true)).stack = .app c' :: .timers n.now :: n.stack := by rw [h3, h6]; rw [show ({ m with delayed := dl } : Node).stack = m.stack from rfl, hs]
          have hret : (m.step C (.lib true)).step C .ret = { m.step C (.lib true) with stack := .timers n.now :: n.stack } := by
            generalize m.step C (.lib true) = m' at hst'
            unfold step
            rw [hst']
            simp [hc']
          obtain ⟨as, a1, a2, a3⟩ := ih ((m.step C (.lib true)).step C .ret) (by rw [hret]; show (m.step C (.lib true)).delayed = _; rw [h3]; exact h7) hsort.2 (by rw [hret])
          refine ⟨.lib true :: .ret :: as, ?_, a2, ?_⟩
          · intro a h
            rcases List.mem_cons.mp h with rfl | h
            · exact .inl rfl
            · rcases List.mem_cons.mp h with rfl | h
              · exact .inr rfl
              · exact a1 a h
          · show ranCalls (((m.step C (.lib true)).step C .ret).run C as).trace = _
            rw [a3, hf, hret]
            show ranCalls (m.step C (.lib true)).trace ++ _ = _
            rw [ht]; simp
      · refine ⟨[.lib true], by simp, ?_⟩
        show (m.step C (.lib true)).stack = _ ∧ ranCalls (m.step C (.lib true)).trace = _
        rw [h2]
        have hx := h1 x dl hd
        have : (x :: dl).filter (fun e => e.time ≤ n.now) = [] := by
          rw [List.filter_eq_nil_iff]
          intro e he
          rcases List.mem_cons.mp he with rfl | he
          · simp; omega
          · have := hsort.1 e he
            unfold Before at this
            simp; omega
        rw [this]
        exact ⟨rfl, by simp⟩
  have hstep : n.step C .callTimedOut = n.push (.timers n.now) := by unfold step; rw [hst]
  obtain ⟨as, a1, a2, a3⟩ := loop n.delayed (n.push (.timers n.now)) rfl hi.sorted rfl
  refine ⟨as, (n.delayed.filter (fun e => e.time ≤ n.now)).map (fun e => (e.seq, e.time)), a1, ?_, ?_, ?_, ?_⟩
  · show ((n.step C .callTimedOut).run C as).stack = _
    rw [hstep]; exact a2
  · show ranCalls ((n.step C .callTimedOut).run C as).trace = _
    rw [hstep, a3, List.map_map]; rfl
  · intro k due
    rw [List.mem_map]
    constructor
    · rintro ⟨e, he, heq⟩
      obtain ⟨h1, h2⟩ := List.mem_filter.mp he
      cases heq
      exact ⟨hi.table e (.inl h1), by simpa using h2, not_ran_of_table hi h1⟩
    · rintro ⟨h1, h2, h3⟩
      obtain ⟨c, hm⟩ := waiting_table hi hc h1 h3
      exact ⟨_, List.mem_filter.mpr ⟨hm, by simpa using h2⟩, rfl⟩
  · exact (List.Pairwise.filter _ hi.sorted).map _ (fun a b h => h)

end Node
end PyNDN
