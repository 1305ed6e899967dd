import Verif.Lemmas.NodeFilters
import Verif.Lemmas.Name
import Verif.Props.NodeExamples
/-
C33: Interest filters.
-/
namespace PyNDN
namespace Node

theorem doesMatch_iff (C : NodeConfig) (f : FilterEntry) (name : Name) : doesMatch C f name = .ok true ↔ filterMatches C f name := by
  unfold doesMatch filterMatches
  rw [← matches_iff]
  split
  · next h =>
    constructor
    · intro h; cases h
    · rintro ⟨h1, _⟩
      have := ((matches_iff _ _).mp h1).length_le
      simp at this
      omega
  · split
    · next r hr =>
      cases hm : f.namePrefix.matches name with
      | false => simp
      | true => simp [hr]
    · next hr => simp [hr]

instance (C : NodeConfig) (f : FilterEntry) (name : Name) : Decidable (filterMatches C f name) := decidable_of_iff _ (doesMatch_iff C f name)

theorem doesMatch_ok (C : NodeConfig) (f : FilterEntry) (name : Name) (h : ∀ r, f.regex = some r → ∃ b, C.regexMatch r (name.drop f.namePrefix.length) = .ok b) :
    ∃ b, doesMatch C f name = .ok b := by
  unfold doesMatch
  split
  · exact ⟨_, rfl⟩
  · split
    · next r hr =>
      split
      · exact ⟨_, rfl⟩
      · exact h r hr
    · exact ⟨_, rfl⟩

theorem matchedFilters_eq (C : NodeConfig) (name : Name) (l : List FilterEntry)
    (h : ∀ f ∈ l, ∀ r, f.regex = some r → ∃ b, C.regexMatch r (name.drop f.namePrefix.length) = .ok b) :
    matchedFilters C name l = .ok (l.filter (fun f => filterMatches C f name)) := by
  induction l with
  | nil => rfl
  | cons x l ih =>
    unfold matchedFilters
    obtain ⟨b, hb⟩ := doesMatch_ok C x name (h x (List.mem_cons_self ..))
    rw [hb, ih (fun f hf => h f (List.mem_cons_of_mem _ hf))]
    cases b with
    | true => rw [List.filter_cons_of_pos (by simpa using (doesMatch_iff C x name).mp hb)]; rfl
    | false =>
      rw [List.filter_cons_of_neg (by
        simp only [decide_eq_true_eq]
        intro hm
        have := (doesMatch_iff C x name).mpr hm
        rw [hb] at this
        cases this)]
      rfl

/-- `onInterest` of a filter is only called with an Interest whose name the filter matches. -/
theorem C33_only_matching (C : NodeConfig) (as : List Action) {k : Nat} {i : Interest} (h : Ev.onInterest k i ∈ (run C {} as).trace) :
    ∃ f, Ev.filterSet f ∈ (run C {} as).trace ∧ f.id = k ∧ filterMatches C f i.name := by
  obtain ⟨f, h1, h2, h3⟩ := (reachable_tabInv (C := C) ⟨as, rfl⟩).call k i h
  exact ⟨f, h1, h2, (doesMatch_iff C f i.name).mp h3⟩

/-- Each filter has its own id. -/
theorem C33_unique_ids (C : NodeConfig) (as : List Action) {f g : FilterEntry} (hf : Ev.filterSet f ∈ (run C {} as).trace)
    (hg : Ev.filterSet g ∈ (run C {} as).trace) (h : f.id = g.id) : f = g :=
  (reachable_tabInv (C := C) ⟨as, rfl⟩).uniq f g hf hg h

/-- The Interest is being passed to the filters. -/
structure Dispatching (C : NodeConfig) (n n' : Node) (i : Interest) : Prop where
  /-- No `onInterest` was called yet. -/
  trace : ∃ pre, n'.trace = n.trace ++ pre ∧ ∀ k j, Ev.onInterest k j ∉ pre
  /-- As soon as control is back, the filters that match were called, in the order of the table. -/
  calls : ∀ as, (n'.run C as).stack.length ≤ n.stack.length →
    ∃ new, (n'.run C as).trace = n.trace ++ new ∧
      ((n.filters.filter (fun f => filterMatches C f i.name)).map (·.id)).Sublist (filterCalls i new)

theorem filterCalls_todo {as : List ExpressArgs} {i : Interest} {fs : List FilterEntry} {new : List Ev} (h : (todo as (.dispatch i fs)).Sublist new) :
    (fs.map (·.id)).Sublist (filterCalls i new) := by
  have e : filterCalls i (todo as (.dispatch i fs)) = fs.map (·.id) := by
    unfold filterCalls todo
    rw [List.filterMap_map, ← List.filterMap_eq_map]
    congr 1
    funext r
    simp
  rw [← e]
  exact List.Sublist.filterMap _ h

/-- When an Interest arrives, the `onInterest` callbacks called are those of the filters on the table that match, in
the order in which they were set, by the time the library returns and whatever the callbacks do.  By
`C33_only_matching` no other is called with this Interest. -/
theorem C33_receive {C : NodeConfig} {n : Node} (hr : Reachable C n) (ha : n.appRuns) {element wire : Bytes} {i : Interest}
    (hd : decodeElement C element = .ok (.interest i wire, none))
    (hok : ∀ f ∈ n.filters, ∀ r, f.regex = some r → ∃ b, C.regexMatch r (i.name.drop f.namePrefix.length) = .ok b) :
    Dispatching C n (n.step C (.receive element)) i := by
  obtain ⟨c, s, hst⟩ := ha
  have hm := matchedFilters_eq C i.name n.filters hok
  have hstep : n.step C (.receive element) = n.push (.dispatch i (n.filters.filter (fun f => filterMatches C f i.name))) := by
    unfold step
    rw [hst]
    dsimp only
    unfold onReceivedElement
    rw [hd]
    simp only [dispatchInterest, hm, finish]
    rfl
  rw [hstep]
  refine ⟨⟨[], by rw [List.append_nil]; rfl, by simp⟩, fun as hlen => ?_⟩
  have hp : Prim C n (n.push (.dispatch i (n.filters.filter (fun f => filterMatches C f i.name)))) :=
    .dispatch n i _ hm ⟨_, _, hst, .inl rfl⟩
  obtain ⟨new, hn, hs⟩ := loop_done (inv_prim hp (reachable_inv hr)) (f := .dispatch i _) (base := n.stack) rfl trivial as hlen
  exact ⟨new, hn, filterCalls_todo hs⟩

theorem helperCore_onInterest (C : NodeConfig) (n : Node) (a : ExpressArgs) (o : Outcome) :
    ∃ pre, (n.helperCore C a o).trace = n.trace ++ pre ∧ ∀ k j, Ev.onInterest k j ∉ pre := by
  rcases helperCore_form C n a o with ⟨_, e⟩ | ⟨_, sq, dl, lt, evs', e, hevs⟩
  · rw [e]; exact ⟨[_], rfl, by simp⟩
  · rw [e]
    rcases hevs with rfl | ⟨k, t, rfl⟩
    · exact ⟨[_], by simp; rfl, by simp⟩
    · exact ⟨[.scheduled k t, .helper a.id o], by simp, by simp⟩

theorem addEntry_helper (C : NodeConfig) (m : Node) (a : ExpressArgs) (o : Outcome) (h : o ≠ .removed) :
    ((m.consume a).addEntry C a).emit (.helper a.id o) = m.helperCore C a o := by
  unfold helperCore; rw [if_neg h]

theorem makeArgs_id (id : Nat) (i : Interest) (h : Handler) (ht hn : Bool) (rnd : Nat → UInt8) : (makeArgs id i h ht hn rnd).id = id := rfl

theorem makeArgs_name (id : Nat) (i : Interest) (h : Handler) (ht hn : Bool) (rnd : Nat → UInt8) : (makeArgs id i h ht hn rnd).interest.name = i.name := by
  unfold makeArgs; dsimp only; split <;> rfl

/-- With interest loopback on, an Interest that the application expresses is passed to the matching filters in the
same way, if it was sent. -/
theorem C33_loopback {C : NodeConfig} {n : Node} (hr : Reachable C n) (ha : n.appRuns) {id : Nat} {i : Interest} {ht hn co so : Bool} {rnd : Nat → UInt8}
    (hid : id ∈ n.tokens) (hs : n.status = .complete) (hl : n.loopback = true) {pre : List Ev} {w : Bytes}
    (htr : (n.step C (.express id i ht hn rnd co so)).trace = n.trace ++ pre) (hsent : Ev.helper id (.sent w) ∈ pre)
    (hok : ∀ f ∈ n.filters, ∀ r, f.regex = some r → ∃ b, C.regexMatch r (i.name.drop f.namePrefix.length) = .ok b) :
    Dispatching C n (n.step C (.express id i ht hn rnd co so)) (makeArgs id i .app ht hn rnd).interest := by
  obtain ⟨c, s, hst⟩ := ha
  have hi := reachable_inv hr
  have hstep : n.step C (.express id i ht hn rnd co so) = finish ((n.emit (.called id)).expressHelper C (makeArgs id i .app ht hn rnd) so) := by
    unfold step
    rw [hst]
    dsimp only
    rw [if_pos hid]
    unfold expressArgs
    have : (n.emit (.called (makeArgs id i .app ht hn rnd).id)).status = .complete := hs
    dsimp only
    rw [this]
    rfl
  have hname := makeArgs_name id i .app ht hn rnd
  rw [hstep] at htr ⊢
  generalize hA : makeArgs id i .app ht hn rnd = a at *
  have haid : a.id = id := by rw [← hA]; rfl
  have hah : a.handler = .app := by rw [← hA]; rfl
  generalize hM : n.emit (.called id) = m at *
  have hmt : m.trace = n.trace ++ [.called id] := by rw [← hM]; rfl
  have hms : m.stack = n.stack := by rw [← hM]; rfl
  -- the other outcomes
  have other : ∀ (m' : Node) (o : Outcome), m'.trace = (m.helperCore C a o).trace → m'.trace = n.trace ++ pre → (∃ w, o = .sent w) := by
    intro m' o h1 h2
    rw [h1] at h2
    rcases helperCore_form C m a o with ⟨ho, e⟩ | ⟨_, sq, dl, lt, evs', e, hevs⟩
    · rw [e] at h2
      dsimp only at h2
      rw [hmt, List.append_assoc] at h2
      have := List.append_cancel_left h2
      rw [← this] at hsent
      simp at hsent
      exact ⟨w, hsent.2.symm⟩
    · rw [e] at h2
      dsimp only at h2
      rw [hmt, List.append_assoc, List.append_assoc] at h2
      have := List.append_cancel_left h2
      rw [← this] at hsent
      rcases hevs with rfl | ⟨k, t, rfl⟩ <;> simp at hsent <;> exact ⟨w, hsent.2.symm⟩
  have htrU : ∀ x : Node, (x.unwind).trace = x.trace := fun x => rfl
  unfold expressHelper at htr ⊢
  dsimp only at htr ⊢
  split at htr
  · next h =>
    obtain ⟨w, hw⟩ := other _ .removed (by unfold helperCore; rw [if_pos rfl]; rfl) htr
    cases hw
  · next h =>
    rw [if_neg h]
    split at htr
    · obtain ⟨w, hw⟩ := other _ .local (by rw [← addEntry_helper C m a _ (by simp)]; rfl) htr
      cases hw
    · next hloc =>
      rw [if_neg hloc]
      split at htr
      · obtain ⟨w, hw⟩ := other _ .failed (by rw [← addEntry_helper C m a _ (by simp)]; rfl) htr
        cases hw
      · next w' hw' =>
        split at htr
        · obtain ⟨w, hw⟩ := other _ .failed (by rw [← addEntry_helper C m a _ (by simp)]; rfl) htr
          cases hw
        · next hsz =>
          rw [if_neg hsz, addEntry_helper C m a _ (by simp)]
          have hrem : a.id ∉ n.removeRequests := by
            intro hx; apply h
            show a.id ∈ m.removeRequests
            rw [← hM]; exact hx
          have hp : Prim C n (m.helperCore C a (.sent w')) := by
            rw [← hM, ← haid]
            exact .exprDirect n a _ ⟨haid ▸ hid, (fun r p b b' hx => by rw [hah] at hx; cases hx)⟩ (.inl hs) ⟨⟨(fun hx => by cases hx), fun hx => absurd hx hrem⟩, fun x hx => by cases hx; exact ⟨hw', by omega⟩⟩
          have hlb : (m.helperCore C a (.sent w')).loopback = true := by
            rw [← hl]
            rcases helperCore_form C m a (.sent w') with ⟨_, e⟩ | ⟨_, sq, dl, lt, evs', e, hevs⟩ <;> rw [e, ← hM] <;> rfl
          have hfs : (m.helperCore C a (.sent w')).filters = n.filters := by
            rw [(helperCore_keep C m a _).1, ← hM]; rfl
          have hstk : (m.helperCore C a (.sent w')).stack = n.stack := by
            rw [helperCore_stack, hms]
          obtain ⟨pre', hpre, hno⟩ := helperCore_onInterest C m a (.sent w')
          have hm := matchedFilters_eq C a.interest.name n.filters (by rw [hname]; exact hok)
          rw [if_pos hlb]
          unfold dispatchInterest
          rw [hfs, hm]
          show Dispatching C n ((m.helperCore C a (.sent w')).push (.dispatch a.interest _)) a.interest
          refine ⟨⟨.called id :: pre', ?_, ?_⟩, fun as hlen => ?_⟩
          · show (m.helperCore C a (.sent w')).trace = _
            rw [hpre, hmt]; simp
          · intro k j hx
            rcases List.mem_cons.mp hx with hx | hx
            · cases hx
            · exact hno k j hx
          · have hp2 : Prim C (m.helperCore C a (.sent w')) ((m.helperCore C a (.sent w')).push (.dispatch a.interest (n.filters.filter (fun f => filterMatches C f a.interest.name)))) :=
              .dispatch _ a.interest _ (by rw [hfs]; exact hm) ⟨_, _, by rw [hstk]; exact hst, .inl rfl⟩
            obtain ⟨new, hn', hs'⟩ := loop_done (inv_prim hp2 (inv_prim hp hi)) (f := .dispatch a.interest _) (base := (m.helperCore C a (.sent w')).stack) rfl trivial as (by rw [hstk]; exact hlen)
            refine ⟨.called id :: pre' ++ new, ?_, ?_⟩
            · rw [hn']
              show (m.helperCore C a (.sent w')).trace ++ new = _
              rw [hpre, hmt]; simp
            · refine (filterCalls_todo hs').trans ?_
              unfold filterCalls
              exact List.Sublist.filterMap _ (List.sublist_append_right _ _)

/-- If the callbacks only return, the calls are exactly those. -/
theorem dispatch_quiet (C : NodeConfig) (i : Interest) (fs : List FilterEntry) : ∀ (n : Node) (base : List Frame), n.stack = .dispatch i fs :: base → (∃ g s, base = g :: s) →
    n.run C ((List.replicate fs.length [Action.lib true, .ret]).flatten ++ [.lib true]) =
      { n with stack := base, trace := n.trace ++ fs.map (fun f => .onInterest f.id i) } := by
  induction fs with
  | nil =>
    intro n base h _
    simp only [List.length_nil, List.replicate_zero, List.flatten_nil, List.nil_append, run, step, h, lib]
    simp
  | cons f rest ih =>
    intro n base h hb
    have h1 : (n.step C (.lib true)).step C .ret = { n with stack := .dispatch i rest :: base, trace := n.trace ++ [.onInterest f.id i] } := by
      have : n.step C (.lib true) = { n with stack := .app .guarded :: .dispatch i rest :: base, trace := n.trace ++ [.onInterest f.id i] } := by
        unfold step
        rw [h]
        dsimp only
        unfold lib
        rw [h]
        rfl
      rw [this]
      rfl
    simp only [List.length_cons, List.replicate_succ, List.flatten_cons, List.cons_append, List.nil_append, run]
    rw [h1, ih _ base rfl hb]
    simp

/-- When an Interest arrives and the callbacks only return, the `onInterest` callbacks called are exactly those of the
filters on the table that match, each once, in the order in which they were set; and nothing else changes. -/
theorem C33_exactly {C : NodeConfig} {n : Node} (ha : n.appRuns) {element wire : Bytes} {i : Interest}
    (hd : decodeElement C element = .ok (.interest i wire, none))
    (hok : ∀ f ∈ n.filters, ∀ r, f.regex = some r → ∃ b, C.regexMatch r (i.name.drop f.namePrefix.length) = .ok b) :
    ∃ k, n.run C (.receive element :: (List.replicate k [Action.lib true, .ret]).flatten ++ [.lib true]) =
        { n with trace := n.trace ++ (n.filters.filter (fun f => filterMatches C f i.name)).map (fun f => .onInterest f.id i) } := by
  obtain ⟨c, s, hst⟩ := ha
  have hm := matchedFilters_eq C i.name n.filters hok
  have hstep : n.step C (.receive element) = n.push (.dispatch i (n.filters.filter (fun f => filterMatches C f i.name))) := by
    unfold step
    rw [hst]
    dsimp only
    unfold onReceivedElement
    rw [hd]
    simp only [dispatchInterest, hm, finish]
    rfl
  refine ⟨(n.filters.filter (fun f => filterMatches C f i.name)).length, ?_⟩
  rw [List.cons_append, run, hstep, dispatch_quiet C i _ (n.push _) n.stack rfl ⟨_, _, hst⟩]
  rfl

/-! ### unsetInterestFilter -/

/-- The filter with this id will not be called. -/
structure Unset (id : Nat) (old : List Ev) (n : Node) : Prop where
  filters : ∀ f ∈ n.filters, f.id ≠ id
  disp : ∀ i fs, Frame.dispatch i fs ∈ n.stack → ∀ f ∈ fs, f.id ≠ id
  bound : id ≤ n.lastId
  tokens : id ∉ n.tokens
  trace : n.trace.filter (isFilterCallOf id) = old

theorem filter_quiet {id : Nat} {evs : List Ev} (h : ∀ x ∈ evs, Quiet x) : evs.filter (isFilterCallOf id) = [] := by
  rw [List.filter_eq_nil_iff]
  intro e he hid
  have := h e he
  cases e <;> first
    | exact this.elim
    | cases hid

theorem unset_prim {C : NodeConfig} {n n' : Node} {id : Nat} {old : List Ev} (hp : Prim C n n') (hd : Unset id old n) : Unset id old n' := by
  have sh := prim_shape hp
  have frames : ∀ i fs, Frame.dispatch i fs ∈ n'.stack → ∀ f ∈ fs, f.id ≠ id := by
    intro i fs hm f hf
    cases sh with
    | same h evs ht hq => exact hd.disp i fs (h ▸ hm) f hf
    | push g h hg evs ht' hq =>
      rw [h] at hm
      rcases List.mem_cons.mp hm with rfl | hm
      · have hg' : fs = n.filters.filter (fun f => decide (doesMatch C f i.name = .ok true)) := hg
        rw [hg'] at hf
        exact hd.filters f (List.mem_filter.mp hf).1
      · exact hd.disp i fs hm f hf
    | pop g s h h' hd' ht' => exact hd.disp i fs (by rw [h]; exact List.mem_cons_of_mem _ (h' ▸ hm)) f hf
    | adv g g' s evs h h' ha ht' =>
      have hm' : Frame.dispatch i fs ∈ g' :: s := by
        rcases h' with h' | h' <;> rw [h'] at hm
        · exact hm
        · rcases List.mem_cons.mp hm with hm | hm
          · cases hm
          · exact hm
      rcases List.mem_cons.mp hm' with rfl | hm'
      · cases ha with
        | dispatch _ f0 _ => exact hd.disp i (f0 :: fs) (by rw [h]; exact List.mem_cons_self ..) f (List.mem_cons_of_mem _ hf)
      · exact hd.disp i fs (by rw [h]; exact List.mem_cons_of_mem _ hm') f hf
  have trace : n'.trace.filter (isFilterCallOf id) = old := by
    have quiet : ∀ evs : List Ev, n'.trace = n.trace ++ evs → (∀ x ∈ evs, Quiet x) → n'.trace.filter (isFilterCallOf id) = old := by
      intro evs h1 h2
      rw [h1, List.filter_append, filter_quiet h2, List.append_nil]; exact hd.trace
    cases sh with
    | same h evs ht hq => exact quiet evs ht hq
    | push g h hg evs ht' hq => exact quiet evs ht' hq
    | pop g s h h' hd' ht' => rw [ht']; exact hd.trace
    | adv g g' s evs h h' ha ht' =>
      rw [ht', List.filter_append, hd.trace]
      have : evs.filter (isFilterCallOf id) = [] := by
        rw [List.filter_eq_nil_iff]
        intro e he hid
        cases ha with
        | deliver d r rest a ha evs hev =>
          rcases List.mem_cons.mp he with rfl | he
          · cases hid
          · rcases hev e he with ⟨g, rfl⟩ | ⟨g, rfl⟩ | ⟨f, rfl⟩ <;> cases hid
        | deliverNone d r rest ha => cases he
        | nack d r rest => rw [List.mem_singleton.mp he] at hid; cases hid
        | dispatch i' f rest =>
          rw [List.mem_singleton.mp he] at hid
          exact hd.disp i' (f :: rest) (by rw [h]; exact List.mem_cons_self ..) f (List.mem_cons_self ..) (by simpa [isFilterCallOf] using hid)
      rw [this, List.append_nil]
  cases prim_tables hp with
  | keep hf hpx hr hl htk he =>
    refine ⟨fun f h => hd.filters f (hf ▸ h), frames, Nat.le_trans hd.bound hl, fun hm => ?_, trace⟩
    rcases htk _ hm with hm | hm
    · exact hd.tokens hm
    · have := hd.bound; omega
  | set id' p regex htk hf hpx hr hl htok he =>
    refine ⟨fun f h => ?_, frames, hl ▸ hd.bound, fun hm => hd.tokens (by rw [htok] at hm; exact List.erase_subset hm), trace⟩
    rw [hf] at h
    rcases List.mem_append.mp h with h | h
    · exact hd.filters f h
    · rw [List.mem_singleton.mp h]
      intro h'
      exact hd.tokens (h' ▸ htk)
  | unset id' h =>
    subst h
    exact ⟨fun f h => hd.filters f (List.mem_filter.mp h).1, frames, hd.bound, hd.tokens, trace⟩
  | removeReg id' h =>
    subst h
    rw [removeRegistered_eq] at frames trace ⊢
    exact ⟨fun f h => hd.filters f (List.mem_filter.mp h).1, frames, hd.bound, hd.tokens, trace⟩
  | register r x hx regId p b b' hh hr hcb he hl htk hreg =>
    have hne : n.lastId + 1 ≠ id := by have := hd.bound; omega
    refine ⟨fun f h => ?_, frames, Nat.le_trans hd.bound hl, htk ▸ hd.tokens, trace⟩
    have : f ∈ n.filters ∨ f.id = n.lastId + 1 := by
      cases hreg with
      | gone hr hrr hpx hf =>
        rcases hf with hf | hf
        · exact .inl (hf ▸ h)
        · rw [hf] at h
          rcases List.mem_append.mp (List.mem_filter.mp h).1 with h | h
          · exact .inl h
          · rw [List.mem_singleton.mp h]; exact .inr rfl
      | plain hr hrr hf hpx => exact .inl (hf ▸ h)
      | filter hr hrr hf hpx hl' hev =>
        rw [hf] at h
        rcases List.mem_append.mp h with h | h
        · exact .inl h
        · rw [List.mem_singleton.mp h]; exact .inr rfl
    rcases this with h | h
    · exact hd.filters f h
    · rw [h]; exact hne

theorem mem_beingDispatched {n : Node} {i : Interest} {fs : List FilterEntry} {f : FilterEntry} (h : Frame.dispatch i fs ∈ n.stack) (hf : f ∈ fs) :
    f ∈ n.beingDispatched := List.mem_flatMap.mpr ⟨_, h, hf⟩

/-- Once `unsetInterestFilter(id)` has returned, the filter with that id is never called again, whatever happens after.
Except when the library is just passing an Interest to this filter: see `C33_during_dispatch`. -/
theorem C33_unset_partial {C : NodeConfig} {n : Node} (hr : Reachable C n) (ha : n.appRuns) {f : FilterEntry} (hf : Ev.filterSet f ∈ n.trace)
    (hd : f ∉ n.beingDispatched) (as : List Action) :
    ((n.step C (.unsetInterestFilter f.id)).run C as).trace.filter (isFilterCallOf f.id) = n.trace.filter (isFilterCallOf f.id) := by
  have hi := reachable_inv hr
  have ht := reachable_tabInv hr
  obtain ⟨c, s, hst⟩ := ha
  have hstep : n.step C (.unsetInterestFilter f.id) = n.unsetInterestFilter f.id := by
    unfold step; rw [hst]
  rw [hstep]
  refine (later_induction (P := Unset f.id (n.trace.filter (isFilterCallOf f.id))) (fun _ _ _ hp hd => unset_prim hp hd) (inv_prim (.unset n f.id) hi) ?_ as).trace
  obtain ⟨_, h2, h3⟩ := ht.ids f hf
  refine ⟨fun g hg => by simpa using (List.mem_filter.mp hg).2, fun i fs hm g hg hid => ?_, h2, h3, rfl⟩
  have hm' : Frame.dispatch i fs ∈ n.stack := hm
  have := ht.uniq g f (ht.disp i fs hm' g hg).1 hf hid
  subst this
  exact hd (mem_beingDispatched hm' hg)

/-! ### Examples -/

/-- Set filters for /A (ids 1 and 2, the second with a regular expression), /B (id 3) and / (id 4). -/
def exFilters : List Action :=
  [.allocId, .allocId, .allocId, .allocId, .setInterestFilter 1 [⟨.generic, [65]⟩] none, .setInterestFilter 2 [⟨.generic, [65]⟩] (some 0),
   .setInterestFilter 3 [⟨.generic, [66]⟩] none, .setInterestFilter 4 [] none]

/-- The Interest of `exInterestWire`. -/
def exInt : Interest := { exInterest with nonce := some [7, 7, 7, 7] }

/-- C33: the Interest /A goes to the filters 1, 2 and 4.  The hypotheses of `C33_receive` and `C33_exactly` hold. -/
example : let n := run exC {} exFilters
    n.appRuns ∧ decodeElement exC exInterestWire = .ok (.interest exInt exInterestWire, none) ∧
    (∀ f ∈ n.filters, ∀ r, f.regex = some r → ∃ b, exC.regexMatch r (exInt.name.drop f.namePrefix.length) = .ok b) ∧
    (n.run exC [.receive exInterestWire, .lib true, .ret, .lib true, .raise, .lib true, .ret, .lib true]).trace.drop n.trace.length =
      [.onInterest 1 exInt, .onInterest 2 exInt, .onInterest 4 exInt] := by
  refine ⟨⟨.main, [], by decide +kernel⟩, by decide +kernel, fun _ _ _ _ => ⟨true, rfl⟩, by decide +kernel⟩

/-- C33: the same with loopback.  The hypotheses of `C33_loopback` hold. -/
example : let n := run exC {} (exFilters ++ [.setLoopback true, .allocId, .allocId, .express 5 exOther false false (fun _ => 7) true true, .lib true, .ret, .lib true, .ret, .lib true, .lib true])
    n.appRuns ∧ 6 ∈ n.tokens ∧ n.status = .complete ∧ n.loopback = true ∧
    (n.step exC (.express 6 exInterest false false (fun _ => 7) true true)).trace = n.trace ++ [.called 6, .helper 6 (.sent exInterestWire)] ∧
    (n.run exC [.express 6 exInterest false false (fun _ => 7) true true, .lib true, .ret, .lib true, .ret, .lib true, .ret, .lib true]).trace.drop (n.trace.length + 2) =
      [.onInterest 1 exInt, .onInterest 2 exInt, .onInterest 4 exInt] := by
  refine ⟨⟨.main, [], by decide +kernel⟩, by decide +kernel, by decide +kernel, by decide +kernel, by decide +kernel, by decide +kernel⟩

/-- C33: after unsetInterestFilter the filter is not called.  The hypotheses of `C33_unset_partial` hold. -/
example : let n := run exC {} exFilters
    n.appRuns ∧ Ev.filterSet ⟨1, [⟨.generic, [65]⟩], none, none⟩ ∈ n.trace ∧ n.beingDispatched = [] ∧
    (n.run exC [.unsetInterestFilter 1, .receive exInterestWire, .lib true, .ret, .lib true, .ret, .lib true]).trace.drop n.trace.length =
      [.onInterest 2 exInt, .onInterest 4 exInt] := by
  refine ⟨⟨.main, [], by decide +kernel⟩, by decide +kernel, by decide +kernel, by decide +kernel⟩

/-- Why `C33_unset_partial` is partial: in the callback of the first filter the application calls unsetInterestFilter for the
second, which is still called with this Interest. -/
theorem C33_during_dispatch : let n := run exC {} (exFilters ++ [.receive exInterestWire, .lib true])
    let n' := n.run exC [.unsetInterestFilter 2, .ret, .lib true]
    n.appRuns ∧ n.trace.filter (isFilterCallOf 2) = [] ∧ n'.filters.map (·.id) = [1, 3, 4] ∧ n'.trace.filter (isFilterCallOf 2) = [.onInterest 2 exInt] := by
  refine ⟨⟨.guarded, [.dispatch exInt [⟨2, [⟨.generic, [65]⟩], some 0, none⟩, ⟨4, [], none, none⟩], .app .main], by decide +kernel⟩, by decide +kernel, by decide +kernel, by decide +kernel⟩

end Node
end PyNDN
