import Verif.Lemmas.NodePending
import Verif.Props.NodeTimers
import Verif.Props.NodeExamples
/-
C31: an Interest with a timeout does not stay pending forever.
-/
namespace PyNDN
namespace Node

theorem pending_ref {n : Node} {e : PitEntry} (h : e ∈ n.pending) : ∃ r ∈ n.pit, n.entries[r]? = some e := by
  unfold pending at h
  obtain ⟨r, hr, he⟩ := List.mem_filterMap.mp h
  exact ⟨r, hr, he⟩

/-- When `callTimedOut` returns, no Interest is pending that has timed out at the time it read. -/
theorem C31_not_pending {C : NodeConfig} {n : Node} (hr : Reachable C n) (hc : C.threadsafe = false) {t : Int} {s : List Frame} {b : Bool}
    (hst : n.stack = .timers t :: s) (hend : (n.step C (.lib b)).stack = s) :
    ∀ e ∈ (n.step C (.lib b)).pending, hasTimer e → t < timesOutAt e := by
  have hi := reachable_timerInv hr
  have hp := reachable_pendInv hr
  rcases lib_timers (C := C) hst b with ⟨e, es, h1, h2, h3⟩ | ⟨h1, h2⟩
  · exfalso
    rw [h3] at hend
    obtain ⟨_, _, _, h5, _⟩ := runDelayed_grow { n with delayed := es } e t
    have := congrArg List.length hend
    rcases h5 with h5 | ⟨c, _, h5⟩ <;> rw [h5] at this <;> simp [hst] at this
    omega
  · intro e he htm
    rw [h2] at he
    obtain ⟨r, hrp, hre⟩ := pending_ref he
    obtain ⟨d, hd, _, hdt⟩ := hp.timer r hrp e.args e.added (by rw [fixed_get]; show (n.entries[r]?).map _ = _; rw [show n.entries[r]? = some e from hre]; rfl) htm
    have hd' : d ∈ n.delayed := by
      rcases hd with hd | hd
      · exact hd
      · rw [hi.loop hc] at hd; cases hd
    have : timesOutAt e = d.time := hdt.symm
    rw [this]
    cases hdl : n.delayed with
    | nil => rw [hdl] at hd'; cases hd'
    | cons x xs =>
      have h3 := h1 x xs hdl
      rw [hdl] at hd'
      rcases List.mem_cons.mp hd' with rfl | h
      · exact h3
      · have h4 := (List.pairwise_cons.mp (hdl ▸ hi.sorted)).1 d h
        unfold Before at h4
        omega

/-- A callback event for an entry object. -/
theorem mem_cbRefs_ev {t : List Ev} {r : Nat} (h : r ∈ cbRefs t) : ∃ e ∈ t, ∃ i, isCallbackOf i e = true ∧ ∀ n, EvOk n e → (n.entries[r]?).map (·.args.id) = some i := by
  obtain ⟨i, h⟩ := mem_cbRefs h
  rcases h with ⟨d, h⟩ | h | ⟨k, h⟩
  · exact ⟨_, h, i, by simp [isCallbackOf], fun n hn => hn⟩
  · exact ⟨_, h, i, by simp [isCallbackOf], fun n hn => hn⟩
  · exact ⟨_, h, i, by simp [isCallbackOf], fun n hn => hn⟩

/-- An Interest with an onTimeout callback that was put on the table, was not removed by the application, and is not
pending, has got a callback, or is just getting one; unless a match test raised an exception
(see `C29_lost`). -/
theorem C31_settled {C : NodeConfig} {n : Node} (hr : Reachable C n) {e : PitEntry} (he : e ∈ n.entries) (hp : ∀ x ∈ n.pending, x.args.id ≠ e.args.id)
    (ht : e.args.hasOnTimeout = true) (hrem : Ev.removeCalled e.args.id ∉ n.trace) (hraise : Ev.matchRaised ∉ n.trace) :
    (∃ ev ∈ n.trace, isCallbackOf e.args.id ev = true) ∨ e.args.id ∈ n.beingDelivered := by
  have hi := reachable_inv hr
  obtain ⟨r, hre⟩ := List.mem_iff_getElem?.mp he
  rcases (reachable_pendInv hr).left r e.args e.added (by rw [fixed_get, hre]; rfl) with h | h | h | h | h | h
  · exact absurd rfl (hp e (List.mem_filterMap.mpr ⟨r, h, hre⟩))
  · right
    have := mem_beingDelivered h
    rwa [idOf_args, args_get, hre] at this
  · left
    obtain ⟨ev, h1, i, h2, h3⟩ := mem_cbRefs_ev h
    have h4 := h3 n (hi.ref.ev ev h1)
    rw [hre] at h4
    cases h4
    exact ⟨ev, h1, h2⟩
  · rw [ht] at h; cases h
  · exact absurd h hrem
  · exact absurd h hraise

/-- What `expressInterest` has processed (and not dropped because of a remove request) is on the table of entry objects:
the one of `C31_settled`. -/
theorem C31_processed {C : NodeConfig} {n : Node} (hr : Reachable C n) {id : Nat} {o : Outcome} (h : Ev.helper id o ∈ n.trace) (ho : o ≠ .removed) :
    ∃ e ∈ n.entries, e.args.id = id := by
  rcases (reachable_pendInv hr).done id o h with h | ⟨x, h1, h2⟩
  · exact absurd h ho
  · unfold fixed at h1
    obtain ⟨e, he, rfl⟩ := List.mem_map.mp h1
    exact ⟨e, he, h2⟩

/-- With a ThreadsafeFace, every pending Interest with a timeout has a timer on the event loop for the time when it times
out, and when the loop runs that timer the Interest is not pending any more, and its onTimeout is called if
it has one. -/
theorem C31_threadsafe {C : NodeConfig} {n : Node} (hr : Reachable C n) (hc : C.threadsafe = true) {e : PitEntry} (he : e ∈ n.pending) (ht : hasTimer e) :
    ∃ (k : Nat) (d : DelayedEntry), n.loopTimers[k]? = some d ∧ d.time = timesOutAt e ∧
      (n.appRuns → timesOutAt e ≤ n.now → (∀ x ∈ (n.step C (.fireTimer k)).pending, x.args.id ≠ e.args.id) ∧
        (e.args.hasOnTimeout = true → ∃ r, Ev.onTimeout e.args.id r ∈ (n.step C (.fireTimer k)).trace)) := by
  have hi := reachable_inv hr
  have hp := reachable_pendInv hr
  obtain ⟨r, hrp, hre⟩ := pending_ref he
  obtain ⟨d, hd, hcall, hdt⟩ := hp.timer r hrp e.args e.added (by rw [fixed_get, hre]; rfl) ht
  have hd' : d ∈ n.loopTimers := by
    rcases hd with hd | hd
    · exfalso
      have : n.delayed = [] := by
        refine reachable_induction (P := fun n => n.delayed = []) rfl (fun a b _ hab h => ?_) hr
        cases prim_timers hab with
        | same h1 _ _ _ => rw [h1, h]
        | sched e he hs ht hs' =>
          rcases hs' with ⟨_, c2, _⟩ | ⟨c1, _⟩
          · rw [c2, h]
          · rw [hc] at c1; cases c1
        | ran e now hle hs ht hx hp =>
          rcases hx with ⟨c1, _⟩ | ⟨c2, _⟩
          · rw [h] at c1; cases c1
          · rw [c2, h]
      rw [this] at hd
      cases hd
    · exact hd
  obtain ⟨k, hk⟩ := List.mem_iff_getElem?.mp hd'
  refine ⟨k, d, hk, hdt, ?_⟩
  rintro ⟨c, s, hst⟩ hle
  have hle' : d.time ≤ n.now := by rw [hdt]; exact hle
  have hstep : n.step C (.fireTimer k) = { n with loopTimers := n.loopTimers.eraseIdx k }.runDelayed d n.now := by
    unfold step
    rw [hst]
    simp only [hk, hle', if_true]
  have hlive := hi.ref.live r hrp e hre
  have hcount : n.pit.count r = 1 := by
    have h1 := hi.ref.once r
    unfold refCount at h1
    have := List.count_pos_iff.mpr hrp
    omega
  have gone : ∀ m : Node, m.entries = markAll n.entries [r] → m.pit = n.pit.erase r → ∀ x ∈ m.pending, x.args.id ≠ e.args.id := by
    intro m h1 h2 x hx hid
    obtain ⟨r', hr', hx'⟩ := pending_ref hx
    rw [h2] at hr'
    rw [h1, markAll_get] at hx'
    cases hy : n.entries[r']? with
    | none => rw [hy] at hx'; cases hx'
    | some y =>
      rw [hy] at hx'
      have hya : y.args = x.args := by
        simp only [Option.map_some, Option.some.injEq] at hx'
        rw [← hx']; split <;> rfl
      have : r' = r := entry_unique hi hy hre (i := e.args.id) (by rw [hya, ← hid]; exact id_mem_argIds _) (id_mem_argIds _)
      subst this
      have h3 := List.count_pos_iff.mpr hr'
      rw [List.count_erase_self] at h3
      omega
  rw [hstep]
  rcases runDelayed_form { n with loopTimers := n.loopTimers.eraseIdx k } d n.now with ⟨h, _⟩ | ⟨r', h, hno, _⟩ | ⟨r', x, h, hx, hr', hp', ⟨ho, e'⟩ | ⟨ho, evs, hevs, e'⟩⟩
  · rw [hcall] at h; cases h
  · rw [hcall] at h; cases h
    rcases hno e hre with h | h
    · rw [hlive] at h; cases h
    · exact absurd hrp h
  · rw [hcall] at h; cases h
    have : x = e := by
      have h1 : n.entries[r]? = some x := hx
      rw [hre] at h1; cases h1; rfl
    subst this
    refine ⟨gone _ (by rw [e']) (by rw [e']), fun h => ?_⟩
    rw [ho] at h; cases h
  · rw [hcall] at h; cases h
    have : x = e := by
      have h1 : n.entries[r]? = some x := hx
      rw [hre] at h1; cases h1; rfl
    subst this
    refine ⟨gone _ (by rw [e']) (by rw [e']), fun h => ⟨r, ?_⟩⟩
    rw [e']
    exact List.mem_append_left _ (List.mem_append_right _ (List.mem_singleton.mpr rfl))

/-- The hypotheses of `C31_not_pending`, `C32_all_due_run` and `C31_settled` are met: after the timers have run, the
three example Interests (one without onTimeout, lifetime 4000 by default) are settled, except the one without a
timer. -/
example : let n := run exC {} (exThree ++ [.clock 4000, .callTimedOut, .lib true, .callLater 5, .callLater (-7), .ret, .lib true, .ret, .lib true, .ret])
    n.stack = [.timers 4000, .app .main] ∧ (n.step exC (.lib true)).stack = [.app .main] ∧ n.pending.map (·.args.id) = [2] ∧
    (run exC {} exThree).pending.map (·.args.id) = [1, 2, 3] := by decide +kernel

/-- C32: ties and a call scheduled meanwhile. -/
example : ranCalls (run exC {} [.callLater 10, .callLater 5, .callLater 5, .callLater 20, .clock 10, .callTimedOut,
      .lib true, .callLater 0, .callLater 1, .ret, .lib true, .ret, .lib true, .ret, .lib true, .ret, .lib true]).trace =
    [(1, 10), (2, 10), (0, 10), (4, 10)] := by decide +kernel

/-- C31 for a ThreadsafeFace. -/
example : let n := run { exC with threadsafe := true } {} (exThree ++ [.clock 4000])
    n.loopTimers.map (·.time) = [4000, 4000] ∧ n.pending.map (·.args.id) = [1, 2, 3] ∧
    (n.step { exC with threadsafe := true } (.fireTimer 1)).pending.map (·.args.id) = [1, 2] := by decide +kernel

/-- If a delayed call of the application raises an exception, it leaves `processEvents`; the calls that are left are run by
the next one. -/
theorem C32_exception : let n := run exC {} [.callLater 5, .callLater 5, .clock 10, .callTimedOut, .lib true, .raise]
    n.stack = [.app .main] ∧ ranCalls n.trace = [(0, 10)] ∧
    ranCalls (n.run exC [.callTimedOut, .lib true, .ret, .lib true]).trace = [(0, 10), (1, 10)] := by decide +kernel

end Node
end PyNDN
