import Verif.Props.NodeConnect
/-
C46: what the application is told about a registration.
-/
namespace PyNDN
namespace Node

/-- The event tells the application about a registration. -/
def isOut : Ev → Bool
  | .registerSuccess _ => true
  | .registerFailed _ => true
  | _ => false

theorem registerOutcomes_append (g : Nat) (a b : List Ev) : registerOutcomes g (a ++ b) = registerOutcomes g a ++ registerOutcomes g b :=
  List.filterMap_append

theorem registerOutcomes_quiet (g : Nat) {evs : List Ev} (h : ∀ e ∈ evs, isOut e = false) : registerOutcomes g evs = [] := by
  unfold registerOutcomes
  rw [List.filterMap_eq_nil_iff]
  intro e he
  have := h e he
  cases e <;> first | rfl | cases this

/-- What `registerOnData` tells the application. -/
theorem registerOnData_tells (n : Node) (d : RxData) (regId : Nat) (p : Name) (hi hs : Bool) :
    ∃ pre o, (n.registerOnData d regId p hi hs).trace = n.trace ++ pre ++ o ∧ (∀ e ∈ pre, ∃ f, e = .filterSet f) ∧
      (∀ g ∈ (n.registerOnData d regId p hi hs).prefixRemoveRequests, g ∈ n.prefixRemoveRequests) ∧
      ((o = [] ∧ ¬ responseFails d ∧ (responseOk d → hs = true → regId ∈ n.prefixRemoveRequests)) ∨
       (o = [.registerFailed regId] ∧ responseFails d) ∨
       (o = [.registerSuccess regId] ∧ responseOk d ∧ (regId ≠ 0 → regId ∉ n.prefixRemoveRequests))) := by
  unfold registerOnData
  cases hc : d.content with
  | none =>
    refine ⟨[], [], by simp, by simp, fun g h => h, .inl ⟨rfl, ?_, ?_⟩⟩
    · rintro ⟨b, hb, _⟩; rw [hc] at hb; cases hb
    · rintro ⟨b, _, hb, _⟩; rw [hc] at hb; cases hb
  | some b =>
    dsimp only
    have same : ∀ {b'}, d.content = some b' → b' = b := fun h => by rw [hc] at h; exact (Option.some.inj h).symm
    cases hr : decodeControlResponse b with
    | error e =>
      by_cases he : e = .value
      · subst he
        exact ⟨[], [.registerFailed regId], by simp [emit, push], by simp, fun g h => h, .inr (.inl ⟨rfl, b, hc, .inl hr⟩)⟩
      · refine ⟨[], [], ?_, by simp, ?_, .inl ⟨rfl, ?_, ?_⟩⟩
        · cases e <;> first | exact absurd rfl he | simp
        · cases e <;> first | exact absurd rfl he | exact fun g h => h
        · rintro ⟨b', hb, h | ⟨c, h, _⟩⟩ <;> rw [same hb, hr] at h <;> cases h
          exact he rfl
        · rintro ⟨b', c, hb, h, _⟩; rw [same hb, hr] at h; cases h
    | ok c =>
      dsimp only
      by_cases h200 : c.statusCode = some 200
      · have hok : responseOk d := ⟨b, c, hc, hr, h200⟩
        have hnf : ¬ responseFails d := by
          rintro ⟨b', hb, h | ⟨c', h, h'⟩⟩ <;> rw [same hb, hr] at h <;> cases h
          exact h' h200
        rw [if_neg (by simpa using h200)]
        by_cases h0 : regId ≠ 0
        · by_cases hrem : regId ∈ n.prefixRemoveRequests
          · cases hi
            · simp only [h0, ne_eq, not_false_eq_true, true_and, Bool.false_eq_true, if_false, hrem, if_true]
              exact ⟨[], [], by simp, by simp, fun g h => List.mem_of_mem_erase h, .inl ⟨rfl, hnf, fun _ _ => trivial⟩⟩
            · simp only [h0, ne_eq, not_false_eq_true, true_and, if_true]
              rw [if_pos (by exact hrem), if_pos (by simp [nextId])]
              exact ⟨[.filterSet ⟨n.lastId + 1, p, none, some regId⟩], [], by rw [List.append_nil]; rfl, fun e h => ⟨_, List.mem_singleton.mp h⟩, fun g h => List.mem_of_mem_erase h, .inl ⟨rfl, hnf, fun _ _ => hrem⟩⟩
          · cases hi
            · simp only [h0, ne_eq, not_false_eq_true, true_and, Bool.false_eq_true, if_false, hrem, if_true]
              cases hs
              · exact ⟨[], [], by simp, by simp, fun g h => h, .inl ⟨rfl, hnf, fun _ h => by cases h⟩⟩
              · exact ⟨[], [.registerSuccess regId], by simp [emit, push], by simp, fun g h => h, .inr (.inr ⟨rfl, hok, fun _ => trivial⟩)⟩
            · simp only [h0, ne_eq, not_false_eq_true, true_and, if_true]
              rw [if_neg (by exact hrem)]
              cases hs
              · exact ⟨[.filterSet ⟨n.lastId + 1, p, none, some regId⟩], [], by rw [List.append_nil]; rfl, fun e h => ⟨_, List.mem_singleton.mp h⟩, fun g h => h, .inl ⟨rfl, hnf, fun _ h => by cases h⟩⟩
              · exact ⟨[.filterSet ⟨n.lastId + 1, p, none, some regId⟩], [.registerSuccess regId], rfl, fun e h => ⟨_, List.mem_singleton.mp h⟩, fun g h => h, .inr (.inr ⟨rfl, hok, fun _ => hrem⟩)⟩
        · simp only [h0, ne_eq, not_false_eq_true, false_and, if_false]
          cases hs
          · exact ⟨[], [], by simp, by simp, fun g h => h, .inl ⟨rfl, hnf, fun _ h => by cases h⟩⟩
          · exact ⟨[], [.registerSuccess regId], by simp [emit, push], by simp, fun g h => h, .inr (.inr ⟨rfl, hok, fun h => absurd h (by simpa using h0)⟩)⟩
      · rw [if_pos (by simpa using h200)]
        exact ⟨[], [.registerFailed regId], by simp [emit, push], by simp, fun g h => h, .inr (.inl ⟨rfl, b, hc, .inr ⟨c, hr, h200⟩⟩)⟩

/-- What a primitive change tells the application about registrations. -/
inductive OShape (n n' : Node) : Prop
  | quiet (evs : List Ev) (htr : n'.trace = n.trace ++ evs) (hq : ∀ e ∈ evs, isOut e = false)
      (hd : ∀ i r d, Ev.onData i r d ∈ evs → ∃ x, n.entries[r]? = some x ∧ x.args.handler = .app)
      (ht : ∀ i r, Ev.onTimeout i r ∈ evs → ∃ x, n.entries[r]? = some x ∧ x.args.handler = .app)
      (hrr : ∀ g ∈ n'.prefixRemoveRequests, g ∈ n.prefixRemoveRequests ∨ Ev.prefixRemoveCalled g ∈ n.trace)
  | data (r : Nat) (x : PitEntry) (d : RxData) (regId : Nat) (p : Name) (b b' : Bool) (pre o : List Ev) (hx : n.entries[r]? = some x) (hh : x.args.handler = .register regId p b b')
      (hr : r ∈ frameRefs n.stack) (htr : n'.trace = n.trace ++ [.onData x.args.id r d] ++ pre ++ o) (hpre : ∀ e ∈ pre, ∃ f, e = .filterSet f)
      (hrr : ∀ g ∈ n'.prefixRemoveRequests, g ∈ n.prefixRemoveRequests)
      (ho : (o = [] ∧ ¬ responseFails d ∧ (responseOk d → b' = true → regId ∈ n.prefixRemoveRequests)) ∨
       (o = [.registerFailed regId] ∧ responseFails d) ∨
       (o = [.registerSuccess regId] ∧ responseOk d ∧ (regId ≠ 0 → regId ∉ n.prefixRemoveRequests)))
  | timeout (r : Nat) (x : PitEntry) (regId : Nat) (p : Name) (b b' : Bool) (seq : Nat) (now : Int) (hx : n.entries[r]? = some x) (hh : x.args.handler = .register regId p b b')
      (hr : r ∈ n.pit) (htr : n'.trace = n.trace ++ [.ran seq now] ++ [.onTimeout x.args.id r] ++ [.registerFailed regId])
      (hrr : n'.prefixRemoveRequests = n.prefixRemoveRequests)

theorem runDelayed_out (n m : Node) (e : DelayedEntry) (now : Int) (h1 : m.trace = n.trace) (h2 : m.entries = n.entries) (h3 : m.pit = n.pit)
    (h4 : m.prefixRemoveRequests = n.prefixRemoveRequests) : OShape n (m.runDelayed e now) := by
  have one : ∀ m' : Node, m'.trace = n.trace ++ [.ran e.seq now] → m'.prefixRemoveRequests = n.prefixRemoveRequests → OShape n m' := fun m' g1 g2 =>
    .quiet _ g1 (by simp [isOut]) (by simp) (by simp) (fun g h => .inl (g2 ▸ h))
  have e2 : ∀ r : Nat, (m.emit (.ran e.seq now)).entries[r]? = n.entries[r]? := fun r => by rw [← h2]; rfl
  have e3 : (m.emit (.ran e.seq now)).pit = n.pit := h3
  unfold runDelayed
  dsimp only
  split
  · next r hc =>
    unfold processTimeout
    rw [e2]
    split
    · exact one _ (by rw [← h1]; rfl) h4
    · next x hx =>
      split
      · exact one _ (by rw [← h1]; rfl) h4
      · split
        · exact one _ (by rw [← h1]; rfl) h4
        · next hp =>
          rw [e3] at hp
          dsimp only
          split
          · split
            · next hh =>
              refine .quiet [.ran e.seq now, .onTimeout x.args.id r] (by rw [← h1]; simp [emit, push, markRemoved]) (by simp [isOut]) (by simp) ?_ (fun g h => .inl (h4 ▸ h))
              intro i s hs
              simp only [List.mem_cons, reduceCtorEq, Ev.onTimeout.injEq, List.not_mem_nil, or_false, false_or] at hs
              rw [hs.2]
              exact ⟨x, hx, hh⟩
            · next regId p b b' hh =>
              exact .timeout r x regId p b b' e.seq now hx hh (Decidable.not_not.mp hp) (by rw [← h1]; simp [emit, push, markRemoved]) h4
          · exact one _ (by rw [← h1]; rfl) h4
  · exact one _ (by rw [← h1]; rfl) h4

theorem prim_out {C : NodeConfig} {n n' : Node} (h : Prim C n n') : OShape n n' := by
  have nil : ∀ m : Node, m.trace = n.trace → m.prefixRemoveRequests = n.prefixRemoveRequests → OShape n m := fun m h1 h2 =>
    .quiet [] (by rw [h1, List.append_nil]) (by simp) (by simp) (by simp) (fun g h => .inl (h2 ▸ h))
  have one : ∀ (m : Node) (e : Ev), m.trace = n.trace ++ [e] → m.prefixRemoveRequests = n.prefixRemoveRequests → isOut e = false →
      (∀ i r d, e ≠ .onData i r d) → (∀ i r, e ≠ .onTimeout i r) → OShape n m := fun m e h1 h2 h3 h4 h5 =>
    .quiet [e] h1 (fun x hx => by rw [List.mem_singleton.mp hx]; exact h3)
      (fun i r d hx => absurd (List.mem_singleton.mp hx).symm (h4 i r d)) (fun i r hx => absurd (List.mem_singleton.mp hx).symm (h5 i r)) (fun g h => .inl (h2 ▸ h))
  have core : ∀ (m : Node) (pre : List Ev) (a : ExpressArgs) (o : Outcome), m.trace = n.trace ++ pre → (pre = [] ∨ ∃ i, pre = [.called i]) → m.prefixRemoveRequests = n.prefixRemoveRequests → OShape n (m.helperCore C a o) := by
    intro m pre a o h1 h2 h3
    rcases helperCore_form C m a o with ⟨_, e⟩ | ⟨_, sq, dl, lt, evs, e, hevs⟩ <;> rw [e]
    · refine .quiet (pre ++ [.helper a.id o]) (by dsimp only; rw [h1, List.append_assoc]) ?_ ?_ ?_ (fun g h => .inl (h3 ▸ h)) <;>
        rcases h2 with rfl | ⟨i, rfl⟩ <;> simp [isOut]
    · refine .quiet (pre ++ evs ++ [.helper a.id o]) (by dsimp only; rw [h1]; simp) ?_ ?_ ?_ (fun g h => .inl (h3 ▸ h)) <;>
        rcases h2 with rfl | ⟨i, rfl⟩ <;> rcases hevs with rfl | ⟨k, t, rfl⟩ <;> simp [isOut]
  cases h with
  | misc => exact nil _ rfl rfl
  | push f ho hf => exact nil _ rfl rfl
  | drop f s h hd hm => exact nil _ rfl rfl
  | setComplete s h => exact nil _ rfl rfl
  | callData d r rest s h =>
    unfold callOnData
    dsimp only
    split
    · exact nil _ rfl rfl
    · next x hx =>
      have hr : r ∈ frameRefs n.stack := by rw [h]; simp [frameRefs]
      split
      · next hh =>
        refine .quiet [.onData x.args.id r d] rfl (by simp [isOut]) ?_ (by simp) (fun g h => .inl h)
        intro i s d' hs
        simp only [List.mem_singleton, Ev.onData.injEq] at hs
        rw [hs.2.1]
        exact ⟨x, hx, hh⟩
      · next regId p b b' hh =>
        obtain ⟨pre, o, h1, h2, h3, h4⟩ := registerOnData_tells ({ n with stack := .deliver d rest :: s }.emit (.onData x.args.id r d)) d regId p b b'
        exact .data r x d regId p b b' pre o hx hh hr h1 h2 h3 h4
  | callNack k r rest s h => exact one _ _ rfl rfl rfl (by simp) (by simp)
  | callFilter i f rest s h => exact one _ _ rfl rfl rfl (by simp) (by simp)
  | takeData d m taken ha hx => rw [(extract_eq hx).2]; exact nil _ rfl rfl
  | takeNack k w m taken ha hx => rw [(extract_eq hx).2]; exact nil _ rfl rfl
  | takeLost p m taken hx => rw [(extract_eq hx).2]; exact nil _ rfl rfl
  | timer now e es s h hd hle => exact runDelayed_out n _ _ _ rfl rfl rfl rfl
  | fire k e ha hk hle => exact runDelayed_out n _ _ _ rfl rfl rfl rfl
  | alloc => exact nil _ rfl rfl
  | exprDirect a o htk hst ho => exact core _ [.called a.id] a o rfl (.inr ⟨_, rfl⟩) rfl
  | exprQueue a c htk hst ha => exact one _ _ rfl rfl rfl (by simp) (by simp)
  | exprFail a htk ha => exact one _ _ rfl rfl rfl (by simp) (by simp)
  | runQueue a o s h hq ho => exact core _ [] a o (by simp) (.inl rfl) rfl
  | queueDone s h hq => exact nil _ rfl rfl
  | removePending id => rw [removePending_eq]; exact nil _ rfl rfl
  | removeRegistered id hev =>
    rw [removeRegistered_eq]
    refine .quiet [] (by simp) (by simp) (by simp) (by simp) ?_
    intro g hg
    dsimp only at hg
    split at hg
    · rcases List.mem_append.mp hg with hg | hg
      · exact .inl hg
      · rw [List.mem_singleton.mp hg]; exact .inr hev
    · exact .inl hg
  | setFilter id p r htk => exact one _ _ rfl rfl rfl (by simp) (by simp)
  | unset id => exact nil _ rfl rfl
  | dispatch i fs hm ho => exact nil _ rfl rfl
  | later d =>
    obtain ⟨dl, lt, e, _⟩ := callLater_form C n d .app
    rw [e]
    exact one _ _ rfl rfl rfl (by simp) (by simp)
  | note e he => rcases he with ⟨w, rfl, _⟩ | ⟨i, rfl⟩ | rfl | rfl | ⟨j, rfl⟩ <;> exact one _ _ rfl rfl rfl (by simp) (by simp)

theorem cbRefs_mem {t : List Ev} {r : Nat} {e : Ev} (h : e ∈ t) (he : (∃ i d, e = .onData i r d) ∨ ∃ i, e = .onTimeout i r) : r ∈ cbRefs t := by
  obtain ⟨a, b, rfl⟩ := List.append_of_mem h
  rw [cbRefs_append]
  rcases he with ⟨i, d, rfl⟩ | ⟨i, rfl⟩ <;> simp [cbRefs]

/-- The entry `r` is the command Interest of the registration `g`. -/
def CommandOf (n : Node) (r g : Nat) (hasOnSuccess : Bool) : Prop := ∃ a p b, n.args[r]? = some a ∧ a.handler = .register g p b hasOnSuccess

structure OutInv (n : Node) : Prop where
  once : ∀ g, (registerOutcomes g n.trace).length ≤ 1
  src : ∀ g, registerOutcomes g n.trace ≠ [] → ∃ r b, CommandOf n r g b ∧ r ∈ cbRefs n.trace
  success : ∀ g, Ev.registerSuccess g ∈ n.trace → ∃ i r b d, CommandOf n r g b ∧ Ev.onData i r d ∈ n.trace ∧ responseOk d
  failed : ∀ g, Ev.registerFailed g ∈ n.trace → ∃ i r b, CommandOf n r g b ∧ (Ev.onTimeout i r ∈ n.trace ∨ ∃ d, Ev.onData i r d ∈ n.trace ∧ responseFails d)
  data : ∀ i r d g b, Ev.onData i r d ∈ n.trace → CommandOf n r g b → (responseFails d → Ev.registerFailed g ∈ n.trace) ∧
    (responseOk d → b = true → Ev.registerSuccess g ∈ n.trace ∨ Ev.prefixRemoveCalled g ∈ n.trace)
  timeout : ∀ i r g b, Ev.onTimeout i r ∈ n.trace → CommandOf n r g b → Ev.registerFailed g ∈ n.trace
  requests : ∀ g ∈ n.prefixRemoveRequests, Ev.prefixRemoveCalled g ∈ n.trace

theorem outInv_prim {C : NodeConfig} {n n' : Node} (hi : Inv C n) (hp : Prim C n n') (h : OutInv n) : OutInv n' := by
  have hargs := prim_args hp
  obtain ⟨evs0, htr0⟩ := shape_trace (prim_shape hp)
  have mono : ∀ e ∈ n.trace, e ∈ n'.trace := fun e he => by rw [htr0]; exact List.mem_append_left _ he
  have monoR : ∀ r ∈ cbRefs n.trace, r ∈ cbRefs n'.trace := fun r hr => by rw [htr0, cbRefs_append]; exact List.mem_append_left _ hr
  have up : ∀ {r g b}, CommandOf n r g b → CommandOf n' r g b := fun ⟨a, p, b, h1, h2⟩ => ⟨a, p, b, prefix_get hargs h1, h2⟩
  have down : ∀ {r g b}, r < n.entries.length → CommandOf n' r g b → CommandOf n r g b := by
    rintro r g b hlt ⟨a, p, b, h1, h2⟩
    have hg : n.args[r]? = some n.entries[r].args := by rw [args_get, List.getElem?_eq_getElem hlt]; rfl
    have := prefix_get hargs hg
    rw [this] at h1
    cases h1
    exact ⟨_, p, b, hg, h2⟩
  have bound : ∀ r ∈ cbRefs n.trace, r < n.entries.length := by
    intro r hr
    refine hi.ref.bound r ?_
    have := List.count_pos_iff.mpr hr
    unfold refCount
    omega
  have hcb : ∀ {i r d}, Ev.onData i r d ∈ n.trace → r < n.entries.length := fun {i r d} hm => bound r (cbRefs_mem hm (.inl ⟨i, d, rfl⟩))
  have hcbT : ∀ {i r}, Ev.onTimeout i r ∈ n.trace → r < n.entries.length := fun {i r} hm => bound r (cbRefs_mem hm (.inr ⟨i, rfl⟩))
  have lt : ∀ {r x}, n.entries[r]? = some x → r < n.entries.length := fun hx => (List.getElem?_eq_some_iff.mp hx).1
  have cmd : ∀ {r : Nat} {x : PitEntry} {regId p b b'}, n.entries[r]? = some x → x.args.handler = .register regId p b b' → CommandOf n r regId b' := fun hx hh =>
    ⟨_, _, _, by rw [args_get, hx]; rfl, hh⟩
  have det : ∀ {r g g' b b'}, CommandOf n r g b → CommandOf n r g' b' → g = g' ∧ b = b' := by
    rintro r g g' b b' ⟨a, p, c, h1, h2⟩ ⟨a', p', c', h1', h2'⟩
    rw [h1] at h1'
    cases h1'
    rw [h2] at h2'
    cases h2'
    exact ⟨rfl, rfl⟩
  have succMem : ∀ g t, registerOutcomes g t = [] → Ev.registerSuccess g ∉ t ∧ Ev.registerFailed g ∉ t := by
    intro g t ht
    unfold registerOutcomes at ht
    rw [List.filterMap_eq_nil_iff] at ht
    exact ⟨fun hm => by have := ht _ hm; simp at this, fun hm => by have := ht _ hm; simp at this⟩
  have fresh : ∀ {r : Nat} {x : PitEntry} {regId p b b'}, n.entries[r]? = some x → x.args.handler = .register regId p b b' → (r ∈ frameRefs n.stack ∨ r ∈ n.pit) → registerOutcomes regId n.trace = [] := by
    intro r x regId p b b' hx hh hr
    refine Decidable.byContradiction fun hne => ?_
    obtain ⟨s, c, ⟨a, q, c', h1, h2⟩, h3⟩ := h.src regId hne
    obtain ⟨y, hy, rfl⟩ := args_entry h1
    have : r = s := entry_unique hi hx hy (i := regId) (by unfold argIds; rw [hh]; simp) (by unfold argIds; rw [h2]; simp)
    subst this
    have h4 := hi.ref.once r
    unfold refCount at h4
    have := List.count_pos_iff.mpr h3
    rcases hr with hr | hr
    · have := List.count_pos_iff.mpr hr
      omega
    · have := List.count_pos_iff.mpr hr
      omega
  cases prim_out hp with
  | quiet evs htr hq hd ht hrr =>
    have ho : ∀ g, registerOutcomes g n'.trace = registerOutcomes g n.trace := fun g => by
      rw [htr, registerOutcomes_append, registerOutcomes_quiet g hq, List.append_nil]
    refine ⟨fun g => ho g ▸ h.once g, fun g hg => ?_, fun g hg => ?_, fun g hg => ?_, ?_, ?_, ?_⟩
    · obtain ⟨r, b, h1, h2⟩ := h.src g (ho g ▸ hg)
      exact ⟨r, b, up h1, monoR r h2⟩
    · rw [htr] at hg
      rcases List.mem_append.mp hg with hg | hg
      · obtain ⟨i, r, b, d, h1, h2, h3⟩ := h.success g hg
        exact ⟨i, r, b, d, up h1, mono _ h2, h3⟩
      · exact absurd (hq _ hg) (by simp [isOut])
    · rw [htr] at hg
      rcases List.mem_append.mp hg with hg | hg
      · obtain ⟨i, r, b, h1, h2⟩ := h.failed g hg
        exact ⟨i, r, b, up h1, h2.imp (mono _) (fun ⟨d, h3, h4⟩ => ⟨d, mono _ h3, h4⟩)⟩
      · exact absurd (hq _ hg) (by simp [isOut])
    · intro i r d g b hm hc
      rw [htr] at hm
      rcases List.mem_append.mp hm with hm | hm
      · obtain ⟨h1, h2⟩ := h.data i r d g b hm (down (hcb hm) hc)
        exact ⟨fun h' => mono _ (h1 h'), fun h' h'' => (h2 h' h'').imp (mono _) (mono _)⟩
      · obtain ⟨x, hx, hh⟩ := hd i r d hm
        obtain ⟨a, p, c, h1, h2⟩ := down (lt hx) hc
        rw [args_get, hx] at h1
        cases h1
        rw [hh] at h2
        cases h2
    · intro i r g b hm hc
      rw [htr] at hm
      rcases List.mem_append.mp hm with hm | hm
      · exact mono _ (h.timeout i r g b hm (down (hcbT hm) hc))
      · obtain ⟨x, hx, hh⟩ := ht i r hm
        obtain ⟨a, p, c, h1, h2⟩ := down (lt hx) hc
        rw [args_get, hx] at h1
        cases h1
        rw [hh] at h2
        cases h2
    · intro g hg
      rcases hrr g hg with hg | hg
      · exact mono _ (h.requests g hg)
      · exact mono _ hg
  | data r x d regId p b b' pre o hx hh hr htr hpre hrr ho =>
    have hcmd := cmd hx hh
    have hdata : Ev.onData x.args.id r d ∈ n'.trace := by rw [htr]; simp
    have hin : r ∈ cbRefs n'.trace := cbRefs_mem hdata (.inl ⟨_, _, rfl⟩)
    have hpq : ∀ g, registerOutcomes g ([Ev.onData x.args.id r d] ++ pre) = [] := fun g => registerOutcomes_quiet g (by
      intro e he
      rcases List.mem_append.mp he with he | he
      · rw [List.mem_singleton.mp he]; rfl
      · obtain ⟨f, rfl⟩ := hpre e he; rfl)
    have hout : ∀ g, registerOutcomes g n'.trace = registerOutcomes g n.trace ++ registerOutcomes g o := fun g => by
      rw [htr, List.append_assoc n.trace, registerOutcomes_append, registerOutcomes_append, hpq g, List.append_nil]
    have hoth : ∀ g, g ≠ regId → registerOutcomes g o = [] := by
      intro g hg
      rcases ho with ⟨rfl, _⟩ | ⟨rfl, _⟩ | ⟨rfl, _⟩
      · rfl
      · simp [registerOutcomes, Ne.symm hg]
      · simp [registerOutcomes, Ne.symm hg]
    have hlen : (registerOutcomes regId o).length ≤ 1 := by
      rcases ho with ⟨rfl, _⟩ | ⟨rfl, _⟩ | ⟨rfl, _⟩ <;> simp [registerOutcomes]
    have hfresh := fresh hx hh (.inl hr)
    have inO : ∀ e, isOut e = true → e ∈ n'.trace → e ∈ n.trace ∨ e ∈ o := by
      intro e he hm
      rw [htr] at hm
      rcases List.mem_append.mp hm with hm | hm
      · rcases List.mem_append.mp hm with hm | hm
        · rcases List.mem_append.mp hm with hm | hm
          · exact .inl hm
          · rw [List.mem_singleton.mp hm] at he; cases he
        · obtain ⟨f, rfl⟩ := hpre e hm; cases he
      · exact .inr hm
    refine ⟨fun g => ?_, fun g hg => ?_, fun g hg => ?_, fun g hg => ?_, ?_, ?_, ?_⟩
    · rw [hout]
      by_cases hg : g = regId
      · rw [hg, hfresh, List.nil_append]; exact hlen
      · rw [hoth g hg, List.append_nil]; exact h.once g
    · by_cases hge : g = regId
      · exact ⟨r, b', hge ▸ up hcmd, hin⟩
      · rw [hout, hoth g hge, List.append_nil] at hg
        obtain ⟨r, b, h1, h2⟩ := h.src g hg
        exact ⟨r, b, up h1, monoR r h2⟩
    · rcases inO _ rfl hg with hg | hg
      · obtain ⟨i, r, b, d, h1, h2, h3⟩ := h.success g hg
        exact ⟨i, r, b, d, up h1, mono _ h2, h3⟩
      · rcases ho with ⟨rfl, _⟩ | ⟨rfl, _⟩ | ⟨rfl, hok, _⟩
        · cases hg
        · simp at hg
        · simp only [List.mem_singleton, Ev.registerSuccess.injEq] at hg
          subst hg
          exact ⟨_, r, b', d, up hcmd, hdata, hok⟩
    · rcases inO _ rfl hg with hg | hg
      · obtain ⟨i, r, b, h1, h2⟩ := h.failed g hg
        exact ⟨i, r, b, up h1, h2.imp (mono _) (fun ⟨d, h3, h4⟩ => ⟨d, mono _ h3, h4⟩)⟩
      · rcases ho with ⟨rfl, _⟩ | ⟨rfl, hf⟩ | ⟨rfl, hok, _⟩
        · cases hg
        · simp only [List.mem_singleton, Ev.registerFailed.injEq] at hg
          subst hg
          exact ⟨_, r, b', up hcmd, .inr ⟨d, hdata, hf⟩⟩
        · simp at hg
    · intro i s d' g c hm hc
      by_cases hold : Ev.onData i s d' ∈ n.trace
      · obtain ⟨h1, h2⟩ := h.data i s d' g c hold (down (hcb hold) hc)
        exact ⟨fun h' => mono _ (h1 h'), fun h' h'' => (h2 h' h'').imp (mono _) (mono _)⟩
      · have hnew : s = r ∧ d' = d := by
          rw [htr] at hm
          rcases List.mem_append.mp hm with hm | hm
          · rcases List.mem_append.mp hm with hm | hm
            · rcases List.mem_append.mp hm with hm | hm
              · exact absurd hm hold
              · simp only [List.mem_singleton, Ev.onData.injEq] at hm
                exact hm.2
            · obtain ⟨f, hf⟩ := hpre _ hm; cases hf
          · rcases ho with ⟨rfl, _⟩ | ⟨rfl, hf⟩ | ⟨rfl, hok, _⟩ <;> simp at hm
        obtain ⟨rfl, rfl⟩ := hnew
        obtain ⟨rfl, rfl⟩ := det (down (lt hx) hc) hcmd
        rcases ho with ⟨rfl, h1, h2⟩ | ⟨rfl, hf⟩ | ⟨rfl, hok, _⟩
        · exact ⟨fun h' => absurd h' h1, fun h' h'' => .inr (mono _ (h.requests _ (h2 h' h'')))⟩
        · refine ⟨fun _ => by rw [htr]; simp, fun h' => ?_⟩
          obtain ⟨b1, c1, e1, e2, e3⟩ := h'
          obtain ⟨b2, f1, f2⟩ := hf
          rw [e1] at f1
          cases f1
          rcases f2 with f2 | ⟨c2, f2, f3⟩ <;> rw [e2] at f2 <;> cases f2
          exact absurd e3 f3
        · refine ⟨fun hf => ?_, fun _ _ => .inl (by rw [htr]; simp)⟩
          obtain ⟨b1, c1, e1, e2, e3⟩ := hok
          obtain ⟨b2, f1, f2⟩ := hf
          rw [e1] at f1
          cases f1
          rcases f2 with f2 | ⟨c2, f2, f3⟩ <;> rw [e2] at f2 <;> cases f2
          exact absurd e3 f3
    · intro i s g c hm hc
      have hold : Ev.onTimeout i s ∈ n.trace := by
        rw [htr] at hm
        rcases List.mem_append.mp hm with hm | hm
        · rcases List.mem_append.mp hm with hm | hm
          · rcases List.mem_append.mp hm with hm | hm
            · exact hm
            · simp at hm
          · obtain ⟨f, hf⟩ := hpre _ hm; cases hf
        · rcases ho with ⟨rfl, _⟩ | ⟨rfl, hf⟩ | ⟨rfl, hok, _⟩ <;> simp at hm
      exact mono _ (h.timeout i s g c hold (down (hcbT hold) hc))
    · exact fun g hg => mono _ (h.requests g (hrr g hg))
  | timeout r x regId p b b' seq now hx hh hr htr hrr =>
    have hcmd := cmd hx hh
    have hdata : Ev.onTimeout x.args.id r ∈ n'.trace := by rw [htr]; simp
    have hin : r ∈ cbRefs n'.trace := cbRefs_mem hdata (.inr ⟨_, rfl⟩)
    have hout : ∀ g, registerOutcomes g n'.trace = registerOutcomes g n.trace ++ (if regId = g then [false] else []) := fun g => by
      rw [htr, registerOutcomes_append, registerOutcomes_append, registerOutcomes_append]
      by_cases hg : regId = g <;> simp [registerOutcomes, hg]
    have hfresh := fresh hx hh (.inr hr)
    refine ⟨fun g => ?_, fun g hg => ?_, fun g hg => ?_, fun g hg => ?_, ?_, ?_, ?_⟩
    · rw [hout]
      by_cases hg : regId = g
      · rw [← hg, hfresh]; simp
      · rw [if_neg hg, List.append_nil]; exact h.once g
    · by_cases hge : regId = g
      · exact ⟨r, b', hge ▸ up hcmd, hin⟩
      · rw [hout, if_neg hge, List.append_nil] at hg
        obtain ⟨r, b, h1, h2⟩ := h.src g hg
        exact ⟨r, b, up h1, monoR r h2⟩
    · rw [htr] at hg
      simp only [List.append_assoc, List.mem_append, List.mem_singleton, reduceCtorEq, or_false] at hg
      obtain ⟨i, r, b, d, h1, h2, h3⟩ := h.success g hg
      exact ⟨i, r, b, d, up h1, mono _ h2, h3⟩
    · rw [htr] at hg
      simp only [List.append_assoc, List.mem_append, List.mem_singleton, reduceCtorEq, false_or, Ev.registerFailed.injEq] at hg
      rcases hg with hg | rfl
      · obtain ⟨i, r, b, h1, h2⟩ := h.failed g hg
        exact ⟨i, r, b, up h1, h2.imp (mono _) (fun ⟨d, h3, h4⟩ => ⟨d, mono _ h3, h4⟩)⟩
      · exact ⟨_, r, b', up hcmd, .inl hdata⟩
    · intro i s d' g c hm hc
      rw [htr] at hm
      simp only [List.append_assoc, List.mem_append, List.mem_singleton, reduceCtorEq, or_false] at hm
      obtain ⟨h1, h2⟩ := h.data i s d' g c hm (down (hcb hm) hc)
      exact ⟨fun h' => mono _ (h1 h'), fun h' h'' => (h2 h' h'').imp (mono _) (mono _)⟩
    · intro i s g c hm hc
      by_cases hold : Ev.onTimeout i s ∈ n.trace
      · exact mono _ (h.timeout i s g c hold (down (hcbT hold) hc))
      · rw [htr] at hm
        simp only [List.append_assoc, List.mem_append, List.mem_singleton, reduceCtorEq, or_false, false_or, Ev.onTimeout.injEq] at hm
        rcases hm with hm | ⟨_, rfl⟩
        · exact absurd hm hold
        · obtain ⟨rfl, rfl⟩ := det (down (lt hx) hc) hcmd
          rw [htr]; simp
    · exact fun g hg => mono _ (h.requests g (hrr ▸ hg))

theorem reachable_outInv {C : NodeConfig} {n : Node} (h : Reachable C n) : OutInv n := by
  refine reachable_induction' (P := OutInv) ⟨?_, ?_, ?_, ?_, ?_, ?_, ?_⟩ (fun _ _ hi hp ht => outInv_prim hi hp ht) h
  · exact fun g => Nat.zero_le _
  · exact fun g h => absurd rfl h
  · exact fun g h => by cases h
  · exact fun g h => by cases h
  · exact fun _ _ _ _ _ h => by cases h
  · exact fun _ _ _ _ h => by cases h
  · exact fun g h => by cases h

theorem commandOf_entry {n : Node} {r g : Nat} {b : Bool} (h : CommandOf n r g b) : ∃ x p b', n.entries[r]? = some x ∧ x.args.handler = .register g p b' b := by
  obtain ⟨a, p, b', h1, h2⟩ := h
  obtain ⟨x, hx, rfl⟩ := args_entry h1
  exact ⟨x, p, b', hx, h2⟩

/-- Of one registration the application is told at most once, by `onRegisterSuccess` or by `onRegisterFailed`. -/
theorem C46_once (C : NodeConfig) (as : List Action) (g : Nat) : (registerOutcomes g (run C {} as).trace).length ≤ 1 :=
  (reachable_outInv (C := C) ⟨as, rfl⟩).once g

/-- `onRegisterSuccess` is only called if the response to the command Interest was received and has the status code 200. -/
theorem C46_success (C : NodeConfig) (as : List Action) {g : Nat} (h : Ev.registerSuccess g ∈ (run C {} as).trace) :
    ∃ r x p b b' i d, (run C {} as).entries[r]? = some x ∧ x.args.handler = .register g p b b' ∧ Ev.onData i r d ∈ (run C {} as).trace ∧ responseOk d := by
  obtain ⟨i, r, b, d, h1, h2, h3⟩ := (reachable_outInv (C := C) ⟨as, rfl⟩).success g h
  obtain ⟨x, p, b', hx, hh⟩ := commandOf_entry h1
  exact ⟨r, x, p, b', b, i, d, hx, hh, h2, h3⟩

/-- `onRegisterFailed` is only called if the command Interest timed out, or the response is another status code or malformed. -/
theorem C46_failed (C : NodeConfig) (as : List Action) {g : Nat} (h : Ev.registerFailed g ∈ (run C {} as).trace) :
    ∃ r x p b b' i, (run C {} as).entries[r]? = some x ∧ x.args.handler = .register g p b b' ∧
      (Ev.onTimeout i r ∈ (run C {} as).trace ∨ ∃ d, Ev.onData i r d ∈ (run C {} as).trace ∧ responseFails d) := by
  obtain ⟨i, r, b, h1, h2⟩ := (reachable_outInv (C := C) ⟨as, rfl⟩).failed g h
  obtain ⟨x, p, b', hx, hh⟩ := commandOf_entry h1
  exact ⟨r, x, p, b', b, i, hx, hh, h2⟩

/-- When the response to the command Interest is received, the application is told: `onRegisterFailed` if it is another status
code or malformed; `onRegisterSuccess`, if there is one, for the status code 200, unless the application has called
`removeRegisteredPrefix`.  Partial: nothing is told for a response with no content, and for a content whose
decoding raises a RuntimeError; see `C46_not_told`. -/
theorem C46_told_partial (C : NodeConfig) (as : List Action) {i r g : Nat} {d : RxData} {x : PitEntry} {p : Name} {b b' : Bool}
    (h : Ev.onData i r d ∈ (run C {} as).trace) (hx : (run C {} as).entries[r]? = some x) (hh : x.args.handler = .register g p b b') :
    (responseFails d → registerOutcomes g (run C {} as).trace = [false]) ∧
    (responseOk d → b' = true → Ev.prefixRemoveCalled g ∉ (run C {} as).trace → registerOutcomes g (run C {} as).trace = [true]) := by
  have hi := reachable_outInv (C := C) ⟨as, rfl⟩
  obtain ⟨h1, h2⟩ := hi.data i r d g b' h ⟨x.args, p, b, by rw [args_get, hx]; rfl, hh⟩
  have one : ∀ v, v ∈ registerOutcomes g (run C {} as).trace → registerOutcomes g (run C {} as).trace = [v] := by
    intro v hv
    have := hi.once g
    match hl : registerOutcomes g (run C {} as).trace, this, hv with
    | [w], _, hv => rw [List.mem_singleton.mp hv]
  refine ⟨fun hf => one _ ?_, fun hok hb hrem => one _ ?_⟩
  · exact List.mem_filterMap.mpr ⟨_, h1 hf, by simp⟩
  · rcases h2 hok hb with h3 | h3
    · exact List.mem_filterMap.mpr ⟨_, h3, by simp⟩
    · exact absurd h3 hrem

/-- When the command Interest times out, `onRegisterFailed` is called. -/
theorem C46_timeout (C : NodeConfig) (as : List Action) {i r g : Nat} {x : PitEntry} {p : Name} {b b' : Bool}
    (h : Ev.onTimeout i r ∈ (run C {} as).trace) (hx : (run C {} as).entries[r]? = some x) (hh : x.args.handler = .register g p b b') :
    registerOutcomes g (run C {} as).trace = [false] := by
  have hi := reachable_outInv (C := C) ⟨as, rfl⟩
  have h1 := hi.timeout i r g b' h ⟨x.args, p, b, by rw [args_get, hx]; rfl, hh⟩
  have hm : false ∈ registerOutcomes g (run C {} as).trace := List.mem_filterMap.mpr ⟨_, h1, by simp⟩
  have := hi.once g
  match hl : registerOutcomes g (run C {} as).trace, this, hm with
  | [w], _, hv => rw [List.mem_singleton.mp hv]

/-- After `removeRegisteredPrefix(g)` the `onRegisterSuccess` of this registration is not called any more. -/
theorem C46_removed {C : NodeConfig} {n : Node} (hr : Reachable C n) (ha : n.appRuns) (g : Nat) (as : List Action) :
    ∃ new, ((n.step C (.removeRegisteredPrefix g)).run C as).trace = n.trace ++ new ∧ Ev.registerSuccess g ∉ new := by
  rw [step_remove ha]
  obtain ⟨hi, ht, hp⟩ := remove_prims hr g
  refine (later_induction (P := fun m => Gone g m ∧ ∃ new, m.trace = n.trace ++ new ∧ Ev.registerSuccess g ∉ new)
    (fun m m' hi hp ⟨hg, new, h1, h2⟩ => ⟨gone_prim hi hp hg, ?_⟩)
    (inv_prim hp hi) ⟨remove_gone ht g, [.prefixRemoveCalled g], ?_, by simp⟩ as).2
  · have app : ∀ evs, m'.trace = m.trace ++ evs → Ev.registerSuccess g ∉ evs → ∃ new, m'.trace = n.trace ++ new ∧ Ev.registerSuccess g ∉ new := by
      intro evs h3 h4
      exact ⟨new ++ evs, by rw [h3, h1, List.append_assoc], by simp [h2, h4]⟩
    cases prim_out hp with
    | quiet evs htr hq => exact app evs htr (fun hm => absurd (hq _ hm) (by simp [isOut]))
    | data r x d regId p b b' pre o hx hh hr htr hpre hrr ho =>
      refine app ([.onData x.args.id r d] ++ pre ++ o) (by rw [htr]; simp) (fun hm => ?_)
      rcases List.mem_append.mp hm with hm | hm
      · rcases List.mem_append.mp hm with hm | hm
        · simp at hm
        · obtain ⟨f, hf⟩ := hpre _ hm; cases hf
      · rcases ho with ⟨rfl, _⟩ | ⟨rfl, _⟩ | ⟨rfl, _, hno⟩
        · cases hm
        · simp at hm
        · simp only [List.mem_singleton, Ev.registerSuccess.injEq] at hm
          subst hm
          rcases hg.future with hf | ⟨s, a, q, c, c', h3, h4, h5⟩
          · refine hno ?_ hf
            have : g ∈ ((m.entries.map (·.args)).flatMap argIds) := by
              refine List.mem_flatMap.mpr ⟨x.args, List.mem_map.mpr ⟨x, List.mem_of_getElem? hx, rfl⟩, ?_⟩
              unfold argIds; rw [hh]; simp
            have h6 := List.count_pos_iff.mpr this
            have h7 := (hi.id.bound g (by unfold idCount; omega)).1
            omega
          · obtain ⟨y, hy, rfl⟩ := args_entry h3
            have : r = s := entry_unique hi hx hy (i := g) (by unfold argIds; rw [hh]; simp) (by unfold argIds; rw [h4]; simp)
            subst this
            have h6 := hi.ref.once r
            unfold refCount at h6
            have := List.count_pos_iff.mpr h5
            have := List.count_pos_iff.mpr hr
            omega
    | timeout r x regId p b b' seq now hx hh hr htr => exact app _ (by rw [htr, List.append_assoc, List.append_assoc]) (by simp)
  · rw [removeRegistered_eq]; rfl

/-! ### Examples -/

/-- A Data packet /A whose content is a ControlResponse with code 201. -/
def ex201 : Bytes := [6, 24, 7, 3, 8, 1, 65, 21, 8, 101, 6, 102, 1, 201, 103, 1, 79, 22, 3, 27, 1, 0, 23, 2, 1, 2]

instance (d : RxData) : Decidable (responseOk d) :=
  match hc : d.content with
  | none => isFalse (by rintro ⟨b, _, h, _⟩; rw [hc] at h; cases h)
  | some b =>
    match hr : decodeControlResponse b with
    | .error e => isFalse (by rintro ⟨b', c, h, h', _⟩; rw [hc] at h; cases h; rw [hr] at h'; cases h')
    | .ok c =>
      if h : c.statusCode = some 200 then isTrue ⟨b, c, hc, hr, h⟩
      else isFalse (by rintro ⟨b', c', h1, h2, h3⟩; rw [hc] at h1; cases h1; rw [hr] at h2; cases h2; exact h h3)

/-- C46: the three outcomes, for a registration with id 1.  The hypotheses of the theorems hold: the entry object 0 is the command
Interest. -/
example : let n := run exC {} exReg
    let ok := n.run exC [.receive exOk, .lib true, .ret, .lib true, .receive exOk]
    let bad := n.run exC [.receive ex201, .lib true, .ret, .lib true]
    let late := n.run exC [.clock 9000, .callTimedOut, .lib true, .lib true, .ret, .lib true]
    (n.entries[0]?).map (·.args.handler) = some (.register 1 [⟨.generic, [65]⟩] true true) ∧
    registerOutcomes 1 ok.trace = [true] ∧ registerOutcomes 1 bad.trace = [false] ∧ registerOutcomes 1 late.trace = [false] ∧
    (∃ d, Ev.onData 3 0 d ∈ ok.trace ∧ responseOk d) ∧ Ev.prefixRemoveCalled 1 ∉ ok.trace ∧
    Ev.onTimeout 3 0 ∈ late.trace := by
  refine ⟨by decide +kernel, by decide +kernel, by decide +kernel, by decide +kernel,
    ⟨⟨[⟨.generic, [65]⟩], .ok [⟨.generic, [65]⟩, ⟨.implicit, exOk⟩], .digest, some [101, 6, 102, 1, 200, 103, 1, 79]⟩, by decide +kernel, by decide +kernel⟩, by decide +kernel, by decide +kernel⟩

/-- Why `C46_told_partial` is partial: the response has no content (`exWire`), so decoding it raises a TypeError, which is only logged.
The command Interest is not pending any more, and neither `onRegisterSuccess` nor `onRegisterFailed` is called, also not when the
Interest's lifetime is over. -/
theorem C46_not_told : let n := run exC {} (exReg ++ [.receive exWire, .lib true, .lib true])
    let n' := n.run exC [.clock 9000, .callTimedOut, .lib true, .lib true]
    n.stack = [.app .main] ∧ n.pending = [] ∧ Ev.onData 3 0 exRx ∈ n.trace ∧
    n'.stack = [.app .main] ∧ registerOutcomes 1 n'.trace = [] := by
  decide +kernel

end Node
end PyNDN
