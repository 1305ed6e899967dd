import Verif.Lemmas.ChronoLog
/-
Lemmas for C61 and C62: what the operations do to the rest of the state.
-/
namespace PyNDN
namespace Chrono
open Spec.Chrono

/-- Not a report of received states. -/
def Unreported : Event → Prop
  | .received _ _ => False
  | _ => True

theorem Plain.unreported {e : Event} (h : Plain e) : Unreported e := by cases e <;> first | exact h | trivial

theorem update_form (P : Params) (s : State) (c : Content) :
    ∃ t lg n, (update P s c).1 = { s with tree := t, log := lg, sequenceNo := n, applied := s.applied ++ [c] } := by
  obtain ⟨n, e, _⟩ := update_eq P s c
  exact ⟨_, _, n, by rw [e]⟩

theorem update_emit (P : Params) (s : State) (c : Content) :
    ∃ t lg n ev, (if (update P s c).2 then (update P s c).1.emit .initialized else (update P s c).1) =
      { s with tree := t, log := lg, sequenceNo := n, applied := s.applied ++ [c], events := s.events ++ ev } ∧ ∀ e ∈ ev, Unreported e := by
  obtain ⟨t, lg, n, e⟩ := update_form P s c
  split
  · exact ⟨t, lg, n, [.initialized], by rw [e]; rfl, by simp [Unreported]⟩
  · exact ⟨t, lg, n, [], by rw [e]; simp, nofun⟩

theorem initialLoop_form (P : Params) (c : Content) (s : State) :
    ∃ t lg n, ∃ ks : List Nat, ∃ ev, initialLoop P s c = { s with tree := t, log := lg, sequenceNo := n, applied := s.applied ++ ks.map (fun k => [ownState P k]), events := s.events ++ ev } ∧ ∀ e ∈ ev, Unreported e := by
  induction c generalizing s with
  | nil => exact ⟨s.tree, s.log, s.sequenceNo, [], [], by simp [initialLoop], nofun⟩
  | cons x c ih =>
    unfold initialLoop
    split
    · dsimp only
      obtain ⟨t, lg, n, e⟩ := update_form P s [ownState P (x.seq + 1)]
      split
      · obtain ⟨t', lg', n', ks, ev, e', he⟩ := ih ((update P s [ownState P (x.seq + 1)]).1.emit .initialized)
        refine ⟨t', lg', n', (x.seq + 1) :: ks, .initialized :: ev, ?_, ?_⟩
        · rw [e', e]; simp [State.emit]
        · intro y hy
          rcases List.mem_cons.1 hy with rfl | hy
          · trivial
          · exact he y hy
      · obtain ⟨t', lg', n', ks, ev, e', he⟩ := ih (update P s [ownState P (x.seq + 1)]).1
        refine ⟨t', lg', n', (x.seq + 1) :: ks, ev, ?_, he⟩
        rw [e', e]; simp
    · exact ih s

theorem initialOndata_form (P : Params) (c : Content) (s : State) :
    ∃ t lg n, ∃ ks : List Nat, ∃ ev, initialOndata P s c = { s with tree := t, log := lg, sequenceNo := n, applied := s.applied ++ c :: ks.map (fun k => [ownState P k]), events := s.events ++ ev } ∧ ∀ e ∈ ev, Unreported e := by
  obtain ⟨t, lg, n, e⟩ := update_form P s c
  obtain ⟨t', lg', n', ks, ev, e', he⟩ := initialLoop_form P c (update P s c).1
  rw [e] at e'
  unfold initialOndata
  dsimp only
  rw [e, e']
  dsimp only [broadcastSyncState, State.emit]
  split
  · refine ⟨t', lg', n', ks, ev ++ [.cache (appendText P.broadcast t.root) (P.serialize [ownState P n'.toNat])], ?_, ?_⟩
    · simp
    · intro y hy
      rcases List.mem_append.1 hy with hy | hy
      · exact he y hy
      · rw [List.mem_singleton.1 hy]; trivial
  · obtain ⟨t2, lg2, n2, ev2, e2, he2⟩ := update_emit P { tree := t', log := lg', sequenceNo := n' + 1, enabled := s.enabled, outstanding := s.outstanding, waits := s.waits, events := s.events ++ ev ++ [Event.cache (appendText P.broadcast t.root) (P.serialize [ownState P n'.toNat])], applied := s.applied ++ [c] ++ ks.map fun k => [ownState P k] } [ownState P (n' + 1).toNat]
    refine ⟨t2, lg2, n2, ks ++ [(n' + 1).toNat], ev ++ [.cache (appendText P.broadcast t.root) (P.serialize [ownState P n'.toNat])] ++ ev2, e2.trans ?_, ?_⟩
    · simp
    · intro y hy
      rcases List.mem_append.1 hy with hy | hy
      · rcases List.mem_append.1 hy with hy | hy
        · exact he y hy
        · rw [List.mem_singleton.1 hy]; trivial
      · exact he2 y hy

/-- What was reported to the application. -/
def told (events : List Event) : List Content := events.filterMap fun
  | .received states _ => some states
  | _ => none

theorem told_append (a b : List Event) : told (a ++ b) = told a ++ told b := List.filterMap_append ..

theorem told_unreported {ev : List Event} (h : ∀ e ∈ ev, Unreported e) : told ev = [] := by
  unfold told
  rw [List.filterMap_eq_nil_iff]
  intro e he
  have := h e he
  cases e <;> first | rfl | exact this.elim

/-- The contents that an operation adds. -/
theorem publish_form (P : Params) (s : State) (info : Bytes) :
    ∃ t lg n ev o, (publishNextSequenceNo P s info).2 = { s with tree := t, log := lg, sequenceNo := n, applied := s.applied ++ [[ownState P (s.sequenceNo + 1).toNat info]], events := s.events ++ ev, outstanding := s.outstanding ++ o } ∧
      (∀ e ∈ ev, Plain e) ∧ ∀ x ∈ o, x.2 = false := by
  unfold publishNextSequenceNo
  dsimp only
  generalize hS : broadcastSyncState P { s with sequenceNo := s.sequenceNo + 1 } s.tree.root [ownState P (s.sequenceNo + 1).toNat info] = S
  obtain ⟨t, lg, n, e⟩ := update_form P S [ownState P (s.sequenceNo + 1).toNat info]
  cases hu : update P S [ownState P (s.sequenceNo + 1).toNat info] with
  | mk s' b =>
    rw [hu] at e
    dsimp only at e
    cases b with
    | false =>
      refine ⟨t, lg, n, [.cache (appendText P.broadcast s.tree.root) (P.serialize [ownState P (s.sequenceNo + 1).toNat info])], [], ?_, by simp [Plain], nofun⟩
      dsimp only
      rw [e, ← hS]
      simp [broadcastSyncState, State.emit]
    | true =>
      refine ⟨t, lg, n, [.cache (appendText P.broadcast s.tree.root) (P.serialize [ownState P (s.sequenceNo + 1).toNat info]),
        .express (appendText P.broadcast t.root) P.lifetime], [(appendText P.broadcast t.root, false)], ?_, by simp [Plain], by simp⟩
      dsimp only
      rw [e, ← hS]
      simp [broadcastSyncState, State.emit, State.ask, State.express]

theorem initialTimeOut_form (P : Params) (s : State) :
    ∃ t lg n cs ev o, (initialTimeOut P s).2 = { s with tree := t, log := lg, sequenceNo := n, applied := s.applied ++ cs, events := s.events ++ ev, outstanding := s.outstanding ++ o } ∧
      (∀ e ∈ ev, Unreported e) ∧ (∀ x ∈ o, x.2 = false) ∧ ∀ c ∈ cs, ∃ k, c = [ownState P k] := by
  unfold initialTimeOut
  split
  · exact ⟨s.tree, s.log, s.sequenceNo, [], [], [], by simp, nofun, nofun, nofun⟩
  · dsimp only
    split
    · exact ⟨s.tree, s.log, s.sequenceNo + 1, [], [], [], by simp, nofun, nofun, nofun⟩
    · obtain ⟨t, lg, n, e⟩ := update_form P { s with sequenceNo := s.sequenceNo + 1 } [ownState P (s.sequenceNo + 1).toNat]
      rw [e]
      refine ⟨t, lg, n, [[ownState P (s.sequenceNo + 1).toNat]], [.initialized, .express (appendText P.broadcast t.root) P.lifetime],
        [(appendText P.broadcast t.root, false)], ?_, by simp [Unreported], by simp, fun c hc => ⟨_, List.mem_singleton.1 hc⟩⟩
      simp [State.emit, State.ask, State.express]

/-- What a received content does. -/
theorem onData_form (P : Params) (s : State) (name : Name) (bytes : Bytes) :
    (onData P s name bytes).2 = s ∨ ∃ c, P.parse bytes = .ok c ∧ s.enabled = true ∧
    ∃ t lg n, ∃ ks : List Nat, ∃ ev b, (onData P s name bytes).2 = { s with tree := t, log := lg, sequenceNo := n, applied := s.applied ++ c :: ks.map (fun k => [ownState P k]), events := s.events ++ ev ++ [.received (reported c) b, .express (appendText P.broadcast t.root) P.lifetime], outstanding := s.outstanding ++ [(appendText P.broadcast t.root, false)] } ∧
      (∀ e ∈ ev, Unreported e) ∧ (s.tree.root ≠ ['0', '0'] → ks = [] ∧ ev = []) := by
  unfold onData
  split
  · exact .inl rfl
  · rename_i hen
    cases hp : P.parse bytes with
    | error e => exact .inl rfl
    | ok c =>
      refine .inr ⟨c, rfl, by simpa using hen, ?_⟩
      dsimp only
      split
      · rename_i hr
        obtain ⟨t, lg, n, ks, ev, e, he⟩ := initialOndata_form P c s
        rw [e]
        exact ⟨t, lg, n, ks, ev, true, by simp [State.emit, State.ask, State.express], he, fun h => absurd hr h⟩
      · obtain ⟨t, lg, n, e⟩ := update_form P s c
        rw [e]
        exact ⟨t, lg, n, [], [], _, by simp [State.emit, State.ask, State.express]; rfl, nofun, fun _ => ⟨rfl, rfl⟩⟩

theorem hear_reported (m : Numbers) (c : Content) : m.hear (reported c) = m.hear c := by
  unfold Numbers.hear reported
  induction c generalizing m with
  | nil => rfl
  | cons x c ih =>
    by_cases h : x.type = 0
    · rw [List.filter_cons_of_pos (by simpa using h), List.foldl_cons, List.foldl_cons, ih]
    · rw [List.filter_cons_of_neg (by simpa using h), List.foldl_cons, ih, if_neg h]

/-- The own producer. -/
def own (P : Params) : Producer := (P.prefixUri, P.session)

theorem heard_own (P : Params) (cs ks : List Content) (hk : ∀ c ∈ ks, ∃ k i, c = [ownState P k i]) {p : Producer} (hp : p ≠ own P) :
    heard (cs ++ ks) p = heard cs p := by
  induction ks generalizing cs with
  | nil => rw [List.append_nil]
  | cons c ks ih =>
    rw [List.append_cons, ih _ fun y hy => hk y (List.mem_cons_of_mem _ hy), heard_snoc]
    obtain ⟨k, i, rfl⟩ := hk c (List.mem_cons_self ..)
    refine hear_other _ _ _ ?_
    intro x hx _
    rw [List.mem_singleton.1 hx]
    exact hp.symm

/-- Contents that agree on a producer still agree after the same content. -/
theorem hear_congr {m m' : Numbers} {p : Producer} (h : m p = m' p) (c : Content) : m.hear c p = m'.hear c p := by
  unfold Numbers.hear
  induction c generalizing m m' with
  | nil => exact h
  | cons x c ih =>
    rw [List.foldl_cons, List.foldl_cons]
    refine ih ?_
    split
    · unfold Numbers.raise
      by_cases hq : p = (x.name, x.session)
      · rw [if_pos hq, if_pos hq, ← hq, h]
      · rw [if_neg hq, if_neg hq, h]
    · exact h

/-- The operations, summed up: which contents are added, what is told, and which Interests are outstanding. -/
theorem perform_form (P : Params) (s : State) (op : Op) :
    ∃ cs ev, (perform P s op).2.applied = s.applied ++ cs ∧ (perform P s op).2.events = s.events ++ ev ∧
      ∀ p, p ≠ own P → ∀ ts, heard s.applied p = heard ts p → heard (s.applied ++ cs) p = heard (ts ++ told ev) p := by
  have none : ∀ (ev : List Event) (cs : List Content), (∀ e ∈ ev, Unreported e) → (∀ c ∈ cs, ∃ k i, c = [ownState P k i]) →
      ∀ p, p ≠ own P → ∀ ts, heard s.applied p = heard ts p → heard (s.applied ++ cs) p = heard (ts ++ told ev) p := by
    intro ev cs hev hcs p hp ts h
    rw [heard_own P _ _ hcs hp, told_unreported hev, List.append_nil, h]
  cases op with
  | publish info =>
    obtain ⟨t, lg, n, ev, o, e, hev, ho⟩ := publish_form P s info
    refine ⟨[[ownState P (s.sequenceNo + 1).toNat info]], ev, by show (publishNextSequenceNo P s info).2.applied = _; rw [e],
      by show (publishNextSequenceNo P s info).2.events = _; rw [e], none ev _ (fun x hx => (hev x hx).unreported) ?_⟩
    intro c hc
    exact ⟨_, _, List.mem_singleton.1 hc⟩
  | interest n =>
    obtain ⟨ev, w, e, hev⟩ := onInterest_frame P s n
    exact ⟨[], ev, by show (onInterest P s n).2.applied = _; rw [e]; simp,
      by show (onInterest P s n).2.events = _; rw [e], none ev _ (fun x hx => (hev x hx).unreported) nofun⟩
  | data i b =>
    unfold perform
    dsimp only
    cases hi : s.outstanding[i]? with
    | none => exact ⟨[], [], by simp, by simp, none _ _ nofun nofun⟩
    | some x =>
      dsimp only
      rcases onData_form P { s with outstanding := s.outstanding.eraseIdx i } x.1 b with e | ⟨c, hp, _, t, lg, n, ks, ev, isR, e, hev, hks⟩
      · rw [e]
        exact ⟨[], [], by simp, by simp, none _ _ nofun nofun⟩
      · rw [e]
        refine ⟨_, ev ++ [.received (reported c) isR, .express (appendText P.broadcast t.root) P.lifetime], rfl, by simp, ?_⟩
        intro p hp ts h
        have e1 : told (ev ++ [.received (reported c) isR, .express (appendText P.broadcast t.root) P.lifetime]) = [reported c] := by
          rw [told_append, told_unreported hev]; rfl
        rw [e1, List.append_cons, heard_own P _ _ _ hp, heard_snoc, heard_snoc, hear_reported]
        · exact hear_congr h c
        · intro y hy
          obtain ⟨k, _, rfl⟩ := List.mem_map.1 hy
          exact ⟨k, [], rfl⟩
  | timeout i =>
    unfold perform
    dsimp only
    cases hi : s.outstanding[i]? with
    | none => exact ⟨[], [], by simp, by simp, none _ _ nofun nofun⟩
    | some x =>
      obtain ⟨nm, f⟩ := x
      cases f with
      | true =>
        obtain ⟨t, lg, n, cs, ev, o, e, hev, ho, hcs⟩ := initialTimeOut_form P { s with outstanding := s.outstanding.eraseIdx i }
        dsimp only
        rw [e]
        refine ⟨cs, ev, rfl, rfl, none ev cs hev ?_⟩
        intro c hc
        obtain ⟨k, rfl⟩ := hcs c hc
        exact ⟨k, [], rfl⟩
      | false =>
        obtain ⟨ev, o, e, hev, ho⟩ := syncTimeout_frame P { s with outstanding := s.outstanding.eraseIdx i } nm
        dsimp only
        rw [e]
        exact ⟨[], ev, by simp, rfl, none ev [] (fun x hx => (hev x hx).unreported) nofun⟩
  | judge i =>
    unfold perform
    dsimp only
    cases hi : s.waits[i]? with
    | none => exact ⟨[], [], by simp, by simp, none _ _ nofun nofun⟩
    | some d =>
      obtain ⟨ev, o, e, hev, ho⟩ := judge_frame P { s with waits := s.waits.eraseIdx i } d
      dsimp only
      rw [e]
      exact ⟨[], ev, by simp, rfl, none ev [] (fun x hx => (hev x hx).unreported) nofun⟩
  | shutdown => exact ⟨[], [], by simp [perform], by simp [perform], none _ _ nofun nofun⟩

/-- The number that `getProducerSequenceNo` returns. -/
def number : Option Nat → Int
  | none => -1
  | some k => k

theorem getProducer_eq {P : Params} {s : State} {m : Numbers} (h : Holds P.sha256 s.tree m) (p : Text) (k : Nat) :
    getProducerSequenceNo s p k = number (m (p, k)) := by
  unfold getProducerSequenceNo
  cases hf : s.tree.find p k with
  | none => rw [(h.find_none p k).1 hf]; rfl
  | some i =>
    obtain ⟨n, hn, h2, h3⟩ := h.find_some hf
    dsimp only
    rw [hn]
    dsimp only
    rw [h3]
    rfl

end Chrono
end PyNDN
