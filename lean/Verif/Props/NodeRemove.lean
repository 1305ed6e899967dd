import Verif.Props.NodeCallbacks
/-
C30: removePendingInterest prevents later callbacks.
-/
namespace PyNDN
namespace Node

/-- The entry objects that a callback can still be called for. -/
def liveRefs (n : Node) : List Nat := n.pit ++ frameRefs n.stack

theorem adv_refs {n : Node} {f f' : Frame} {evs : List Ev} (h : Adv n f f' evs) (s : List Frame) :
    ∀ r ∈ frameRefs (f' :: s), r ∈ frameRefs (f :: s) := by
  intro r hr
  cases h with
  | deliver d x rest a ha evs he => exact List.mem_cons_of_mem _ hr
  | deliverNone d x rest ha => exact List.mem_cons_of_mem _ hr
  | nack k x rest => exact List.mem_cons_of_mem _ hr
  | dispatch i f rest => exact hr

/-- Which callbacks a primitive change calls. -/
theorem prim_callbacks {C : NodeConfig} {n n' : Node} (hi : Inv C n) (h : Prim C n n') :
    ∃ evs, n'.trace = n.trace ++ evs ∧ ∀ e ∈ evs, ∀ id, isCallbackOf id e = true →
      ∃ r a, r ∈ n.liveRefs ∧ n.args[r]? = some a ∧ a.id = id := by
  have run : ∀ (m : Node) (e : DelayedEntry) (now : Int), m.entries = n.entries → m.pit = n.pit → m.trace = n.trace →
      ∃ evs, (m.runDelayed e now).trace = n.trace ++ evs ∧ ∀ e ∈ evs, ∀ id, isCallbackOf id e = true →
      ∃ r a, r ∈ n.liveRefs ∧ n.args[r]? = some a ∧ a.id = id := by
    intro m e now h1 h2 h3
    rcases runDelayed_form m e now with ⟨_, e'⟩ | ⟨r, _, _, e'⟩ | ⟨r, x, _, hx, hr, hp, ⟨_, e'⟩ | ⟨_, evs, hevs, e'⟩⟩
    · rw [e']; refine ⟨[.ran e.seq now], by rw [← h3], ?_⟩
      intro y hy id hid; rw [List.mem_singleton.mp hy] at hid; cases hid
    · rw [e']; refine ⟨[.ran e.seq now], by rw [← h3], ?_⟩
      intro y hy id hid; rw [List.mem_singleton.mp hy] at hid; cases hid
    · rw [e']; refine ⟨[.ran e.seq now], by rw [← h3], ?_⟩
      intro y hy id hid; rw [List.mem_singleton.mp hy] at hid; cases hid
    · rw [e']
      refine ⟨[.ran e.seq now] ++ [.onTimeout x.args.id r] ++ evs, by rw [← h3]; simp, ?_⟩
      intro y hy id hid
      rcases List.mem_append.mp hy with hy | hy
      · rcases List.mem_append.mp hy with hy | hy
        · rw [List.mem_singleton.mp hy] at hid; cases hid
        · rw [List.mem_singleton.mp hy] at hid
          refine ⟨r, x.args, List.mem_append_left _ (h2 ▸ hp), ?_, by simpa [isCallbackOf] using hid⟩
          rw [args_get, ← h1, hx]; rfl
      · rcases hevs y hy with ⟨g, rfl⟩ | ⟨g, rfl⟩ | ⟨f, rfl⟩ <;> cases hid
  have quiet : ∀ m : Node, (∀ evs, m.trace = n.trace ++ evs → (∀ x ∈ evs, Quiet x) → ∀ e ∈ evs, ∀ i r, e ≠ .onTimeout i r) → Shape C n m →
      ∃ evs, m.trace = n.trace ++ evs ∧ ∀ e ∈ evs, ∀ id, isCallbackOf id e = true →
      ∃ r a, r ∈ n.liveRefs ∧ n.args[r]? = some a ∧ a.id = id := by
    intro m hno hs
    have q : ∀ evs, m.trace = n.trace ++ evs → (∀ x ∈ evs, Quiet x) → ∀ e ∈ evs, ∀ id, isCallbackOf id e = true →
      ∃ r a, r ∈ n.liveRefs ∧ n.args[r]? = some a ∧ a.id = id := by
      intro evs ht hq e he id hid
      have h1 := hq e he
      have h2 := hno evs ht hq e he
      cases e <;> first
        | exact h1.elim
        | exact absurd rfl (h2 _ _)
        | cases hid
    cases hs with
    | same h1 evs ht hq => exact ⟨evs, ht, q evs ht hq⟩
    | push f h1 hf evs ht hq => exact ⟨evs, ht, q evs ht hq⟩
    | pop f s h1 h1' hd ht => exact ⟨[], by rw [ht, List.append_nil], by simp⟩
    | adv f f' s evs h1 h1' ha ht =>
      refine ⟨evs, ht, ?_⟩
      have mem : ∀ r, r ∈ frameRefs (f :: s) → r ∈ n.liveRefs := fun r hr => List.mem_append_right _ (by rw [h1]; exact hr)
      intro e he id hid
      cases ha with
      | deliver d x rest a ha evs' he' =>
        rcases List.mem_cons.mp he with rfl | he
        · exact ⟨x, a, mem x (List.mem_cons_self ..), ha, by simpa [isCallbackOf] using hid⟩
        · rcases he' e he with ⟨g, rfl⟩ | ⟨g, rfl⟩ | ⟨f, rfl⟩ <;> cases hid
      | deliverNone d x rest ha => cases he
      | nack k x rest =>
        rw [List.mem_singleton.mp he] at hid
        have hm := mem x (List.mem_cons_self ..)
        have hlt : x < n.entries.length := hi.ref.bound x (by
          unfold refCount
          have := List.count_pos_iff.mpr (show x ∈ frameRefs n.stack by rw [h1]; exact List.mem_cons_self ..)
          omega)
        refine ⟨x, n.entries[x].args, hm, by rw [args_get, List.getElem?_eq_getElem hlt]; rfl, ?_⟩
        have : n.idOf x = id := by simpa [isCallbackOf] using hid
        rw [← this]
        unfold idOf
        rw [List.getElem?_eq_getElem hlt]
        rfl
      | dispatch i f rest => rw [List.mem_singleton.mp he] at hid; cases hid
  have sh := prim_shape h
  have noTimeout : ∀ m : Node, (∀ i r, Ev.onTimeout i r ∈ m.trace → (n.trace.count (.onTimeout i r) = m.trace.count (.onTimeout i r))) →
      ∀ evs, m.trace = n.trace ++ evs → (∀ x ∈ evs, Quiet x) → ∀ e ∈ evs, ∀ i r, e ≠ .onTimeout i r := by
    intro m hm evs ht _ e he i r heq
    subst heq
    have := hm i r (by rw [ht]; exact List.mem_append_right _ he)
    rw [ht, List.count_append] at this
    have := List.count_pos_iff.mpr he
    omega
  cases h with
  | timer now e es s h hd hle => exact run { n with delayed := es } e now rfl rfl rfl
  | fire k e ha hk hle => exact run { n with loopTimers := n.loopTimers.eraseIdx k } e n.now rfl rfl rfl
  | callData d r rest s h =>
    refine quiet _ ?_ sh
    rcases callOnData_form { n with stack := .deliver d rest :: s } r d with ⟨hn, e⟩ | ⟨x, hx, k, fs, ps, rr, evs, st, e, hevs, _⟩
    · rw [e]; exact noTimeout _ (fun i r _ => rfl)
    · rw [e]
      refine noTimeout _ (fun i r _ => ?_)
      dsimp only
      rw [List.count_append, List.count_append]
      have : evs.count (.onTimeout i r) = 0 := List.count_eq_zero.mpr (fun hm => by
        rcases hevs _ hm with ⟨g, h⟩ | ⟨g, h⟩ | ⟨f, h⟩ <;> cases h)
      simp [this]
  | exprDirect a o htk hst ho =>
    refine quiet _ (noTimeout _ (fun i r _ => ?_)) sh
    rcases helperCore_form C (n.emit (.called a.id)) a o with ⟨_, e⟩ | ⟨_, sq, dl, lt, evs', e, hevs⟩
    · rw [e]; simp [emit, List.count_append]
    · rw [e]; rcases hevs with rfl | ⟨k, t, rfl⟩ <;> simp [emit, List.count_append]
  | runQueue a o s h hq ho =>
    refine quiet _ (noTimeout _ (fun i r _ => ?_)) sh
    rcases helperCore_form C { n with next := n.next + 1 } a o with ⟨_, e⟩ | ⟨_, sq, dl, lt, evs', e, hevs⟩
    · rw [e]; simp [List.count_append]
    · rw [e]; rcases hevs with rfl | ⟨k, t, rfl⟩ <;> simp [List.count_append]
  | callNack k r rest s h => exact quiet _ (noTimeout _ (fun i r _ => by simp [emit, push, List.count_append])) sh
  | callFilter k r rest s h => exact quiet _ (noTimeout _ (fun i r _ => by simp [emit, push, List.count_append])) sh
  | takeData d n' taken ha hx => exact quiet _ (noTimeout _ (fun i r _ => by rw [(extract_eq hx).2]; rfl)) sh
  | takeNack d w n' taken ha hx => exact quiet _ (noTimeout _ (fun i r _ => by rw [(extract_eq hx).2]; rfl)) sh
  | takeLost p n' taken hx => exact quiet _ (noTimeout _ (fun i r _ => by rw [(extract_eq hx).2])) sh
  | exprQueue a c htk hst ha => exact quiet _ (noTimeout _ (fun i r _ => by simp [consume, emit, List.count_append])) sh
  | exprFail a htk ha => exact quiet _ (noTimeout _ (fun i r _ => by simp [consume, emit, List.count_append])) sh
  | removePending id => exact quiet _ (noTimeout _ (fun i r _ => by rw [removePending_eq])) sh
  | removeRegistered id => exact quiet _ (noTimeout _ (fun i r _ => by rw [removeRegistered_eq])) sh
  | later d =>
    obtain ⟨dl, lt, e, _⟩ := callLater_form C n d .app
    exact quiet _ (noTimeout _ (fun i r _ => by rw [e]; simp [List.count_append])) sh
  | setFilter id p r htk => exact quiet _ (noTimeout _ (fun i r _ => by simp [emit, List.count_append])) sh
  | note e he => rcases he with ⟨w, rfl, _⟩ | ⟨i, rfl⟩ | rfl | rfl | ⟨j, rfl⟩ <;> exact quiet _ (noTimeout _ (fun i r _ => by simp [emit, List.count_append])) sh
  | _ => exact quiet _ (noTimeout _ (fun i r _ => rfl)) sh

/-- Nothing will be called for this id. -/
structure Dead (id : Nat) (old : List Ev) (n : Node) : Prop where
  refs : ∀ r ∈ n.liveRefs, ∀ a, n.args[r]? = some a → a.id ≠ id
  future : id ∈ n.removeRequests ∨ (id ≤ n.lastId ∧ id ∉ n.tokens ∧ ∀ a ∈ n.waiting, a.id ≠ id)
  trace : n.trace.filter (isCallbackOf id) = old

/-- How the waiting calls and ids change. -/
theorem dead_prim {C : NodeConfig} {n n' : Node} {id : Nat} {old : List Ev} (hi : Inv C n) (h : Prim C n n') (hd : Dead id old n) : Dead id old n' := by
  obtain ⟨evs, ht, hcb⟩ := prim_callbacks hi h
  have htr : n'.trace.filter (isCallbackOf id) = old := by
    rw [ht, List.filter_append, hd.trace]
    have : evs.filter (isCallbackOf id) = [] := by
      rw [List.filter_eq_nil_iff]
      intro e he hid
      obtain ⟨r, a, hr, ha, hai⟩ := hcb e he id hid
      exact hd.refs r hr a ha hai
    rw [this, List.append_nil]
  have hargs := prim_args h
  have same : (∀ r ∈ n'.liveRefs, r ∈ n.liveRefs) → (id ∈ n.removeRequests → id ∈ n'.removeRequests) → n.lastId ≤ n'.lastId →
      (id ∈ n'.tokens → id ∈ n.tokens) → n'.waiting = n.waiting → Dead id old n' := by
    intro h1 h2 h3 h4 h5
    refine ⟨?_, ?_, htr⟩
    · intro r hr a ha
      have hr' := h1 r hr
      have hlt : r < n.entries.length := hi.ref.bound r (by
        unfold refCount
        rcases List.mem_append.mp hr' with hm | hm <;> have := List.count_pos_iff.mpr hm <;> omega)
      have hge : n.args[r]? = some n.entries[r].args := by rw [args_get, List.getElem?_eq_getElem hlt]; rfl
      have := prefix_get hargs hge
      rw [this] at ha
      cases ha
      exact hd.refs r hr' _ hge
    · rw [h5]
      rcases hd.future with h | ⟨h, h', h''⟩
      · exact .inl (h2 h)
      · exact .inr ⟨Nat.le_trans h h3, fun hm => h' (h4 hm), h''⟩
  have live : n'.pit = n.pit → frameRefs n'.stack = frameRefs n.stack → ∀ r ∈ n'.liveRefs, r ∈ n.liveRefs := by
    intro h1 h2 r hr
    unfold liveRefs at *
    rwa [h1, h2] at hr
  have run : ∀ (m : Node) (e : DelayedEntry) (now : Int), m.pit = n.pit → m.stack = n.stack → m.removeRequests = n.removeRequests → m.lastId = n.lastId →
      m.tokens = n.tokens → m.queue = n.queue → m.next = n.next → n' = m.runDelayed e now → Dead id old n' := by
    intro m e now h1 h2 h3 h4 h5 h6 h7 hn
    rcases runDelayed_form m e now with ⟨_, e'⟩ | ⟨r, _, _, e'⟩ | ⟨r, x, _, hx, hr, hp, ⟨_, e'⟩ | ⟨_, evs, hevs, e'⟩⟩ <;> rw [e'] at hn
    · subst hn; exact same (live h1 (by show frameRefs m.stack = _; rw [h2])) (fun h => h3 ▸ h) (Nat.le_of_eq h4.symm) (fun h => h5 ▸ h) (helper_waiting h6 h7)
    · subst hn; exact same (live h1 (by show frameRefs m.stack = _; rw [h2])) (fun h => h3 ▸ h) (Nat.le_of_eq h4.symm) (fun h => h5 ▸ h) (helper_waiting h6 h7)
    all_goals
      subst hn
      refine same ?_ (fun h => h3 ▸ h) (Nat.le_of_eq h4.symm) (fun h => h5 ▸ h) (helper_waiting h6 h7)
      intro y hy
      unfold liveRefs at *
      rcases List.mem_append.mp hy with hy | hy
      · exact List.mem_append_left _ (h1 ▸ List.mem_of_mem_erase hy)
      · exact List.mem_append_right _ (by rw [← h2]; exact hy)
  have helper : ∀ (m : Node) (a : ExpressArgs) (o : Outcome), m.pit = n.pit → m.stack = n.stack → m.removeRequests = n.removeRequests → m.lastId = n.lastId →
      m.tokens = n.tokens → m.entries = n.entries → (∀ b ∈ m.waiting, b ∈ n.waiting) → (o = .removed ↔ a.id ∈ n.removeRequests) →
      (a.id = id → id ∈ n.removeRequests) → (a.id = id → id ≤ n.lastId ∧ id ∉ (m.consume a).tokens ∧ ∀ b ∈ m.waiting, b.id ≠ id) →
      n' = m.helperCore C a o → Dead id old n' := by
    intro m a o h1 h2 h3 h4 h5 h6 h7 h8 h9 h10 hn
    have tok : id ∉ n.tokens → id ∉ (m.consume a).tokens := fun h hm => h (h5 ▸ (consume_tokens m a).subset hm)
    rcases helperCore_form C m a o with ⟨ho, e⟩ | ⟨ho, sq, dl, lt, evs', e, hevs⟩
    · rw [e] at hn
      subst hn
      refine ⟨?_, ?_, htr⟩
      · intro r hr b hb
        unfold liveRefs at hr
        dsimp only at hr
        rw [h1, h2] at hr
        have : n.args[r]? = some b := by rw [args_get] at hb ⊢; rw [← h6]; exact hb
        exact hd.refs r hr b this
      · by_cases hai : a.id = id
        · obtain ⟨x1, x2, x3⟩ := h10 hai
          exact .inr ⟨by show id ≤ m.lastId; rw [h4]; exact x1, x2, x3⟩
        · rcases hd.future with h | ⟨h, h', h''⟩
          · refine .inl ?_
            show id ∈ m.removeRequests.erase a.id
            rw [h3]
            exact (List.mem_erase_of_ne (fun h => hai h.symm)).mpr h
          · exact .inr ⟨by show id ≤ m.lastId; rw [h4]; exact h, tok h', fun b hb => h'' b (h7 b hb)⟩
    · have hne : a.id ≠ id := fun h => ho (h8.mpr (h ▸ h9 h))
      rw [e] at hn
      subst hn
      refine ⟨?_, ?_, htr⟩
      · intro r hr b hb
        have hb' : (n.args ++ [a])[r]? = some b := by
          unfold args at *
          dsimp only at hb
          rw [h6, List.map_append] at hb
          exact hb
        have hr' : r ∈ n.liveRefs ∨ r = n.entries.length := by
          unfold liveRefs at *
          dsimp only at hr
          rw [h1, h2, h6] at hr
          rcases List.mem_append.mp hr with hr | hr
          · rcases List.mem_append.mp hr with hr | hr
            · exact .inl (List.mem_append_left _ hr)
            · exact .inr (List.mem_singleton.mp hr)
          · exact .inl (List.mem_append_right _ hr)
        have hlen : n.args.length = n.entries.length := by unfold args; simp
        rcases hr' with hr' | rfl
        · have hlt : r < n.entries.length := hi.ref.bound r (by
            unfold refCount
            rcases List.mem_append.mp hr' with hm | hm <;> have := List.count_pos_iff.mpr hm <;> omega)
          rw [List.getElem?_append_left (by rw [hlen]; exact hlt)] at hb'
          exact hd.refs r hr' b hb'
        · rw [List.getElem?_append_right (by rw [hlen]; exact Nat.le_refl _), hlen, Nat.sub_self] at hb'
          simp at hb'
          rw [← hb']
          exact hne
      · rcases hd.future with h | ⟨h, h', h''⟩
        · exact .inl (by show id ∈ m.removeRequests; rw [h3]; exact h)
        · exact .inr ⟨by show id ≤ m.lastId; rw [h4]; exact h, tok h', fun b hb => h'' b (h7 b hb)⟩
  cases h with
  | misc => exact same (live rfl rfl) (fun h => h) (Nat.le_refl _) (fun h => h) rfl
  | push f ho hf =>
    refine same (live rfl (frameRefs_plain ?_ _)) (fun h => h) (Nat.le_refl _) (fun h => h) rfl
    rcases hf with ⟨c, rfl⟩ | ⟨t, rfl⟩ | ⟨rfl, _⟩ | ⟨rfl, _⟩ <;> rfl
  | drop f s h hd hm => exact same (live rfl (by rw [h, frameRefs_done hd])) (fun h => h) (Nat.le_refl _) (fun h => h) rfl
  | setComplete s h => exact same (live rfl (by rw [h]; rfl)) (fun h => h) (Nat.le_refl _) (fun h => h) rfl
  | callData d r rest s h =>
    have fr : ∀ st : List Frame, (st = .deliver d rest :: s ∨ st = .app .guarded :: .deliver d rest :: s) → ∀ x ∈ n.pit ++ frameRefs st, x ∈ n.liveRefs := by
      intro st hst x hx
      have e : frameRefs st = rest ++ frameRefs s := by rcases hst with rfl | rfl <;> rfl
      rw [e] at hx
      unfold liveRefs
      rw [h]
      rcases List.mem_append.mp hx with hx | hx
      · exact List.mem_append_left _ hx
      · exact List.mem_append_right _ (List.mem_cons_of_mem _ hx)
    rcases callOnData_form { n with stack := .deliver d rest :: s } r d with ⟨_, e⟩ | ⟨x, hx, k, fs, ps, rr, evs, st, e, hevs, hst, _⟩
    · rw [e] at same ⊢
      exact same (fr _ (.inl rfl)) (fun h => h) (Nat.le_refl _) (fun h => h) rfl
    · rw [e] at same ⊢
      exact same (fr _ hst) (fun h => h) (Nat.le_add_right _ _) (fun h => h) rfl
  | callNack k r rest s h =>
    refine same ?_ (fun h => h) (Nat.le_refl _) (fun h => h) rfl
    intro x hx
    unfold liveRefs at *
    rw [h]
    rcases List.mem_append.mp hx with hx | hx
    · exact List.mem_append_left _ hx
    · exact List.mem_append_right _ (List.mem_cons_of_mem _ hx)
  | callFilter i f rest s h => exact same (live rfl (by rw [h]; rfl)) (fun h => h) (Nat.le_refl _) (fun h => h) rfl
  | takeData d m taken ha hx =>
    have hc := extract_taken hx
    have e := (extract_eq hx).2
    refine same ?_ (fun h => by rw [e]; exact h) (by rw [e]; exact Nat.le_refl _) (fun h => by rw [e] at h; exact h) (by rw [e]; rfl)
    intro x hm
    unfold liveRefs at *
    have hst : (m.push (.deliver d taken)).stack = .deliver d taken :: n.stack := by rw [e]; rfl
    rw [hst] at hm
    rcases List.mem_append.mp hm with hm | hm
    · have := extract_count hx x
      have h1 : x ∈ m.pit := hm
      have := List.count_pos_iff.mpr h1
      exact List.mem_append_left _ (List.count_pos_iff.mp (by omega))
    · rcases List.mem_append.mp hm with hm | hm
      · exact List.mem_append_left _ (hc x hm).2
      · exact List.mem_append_right _ hm
  | takeNack k w m taken ha hx =>
    have hc := extract_taken hx
    have e := (extract_eq hx).2
    refine same ?_ (fun h => by rw [e]; exact h) (by rw [e]; exact Nat.le_refl _) (fun h => by rw [e] at h; exact h) (by rw [e]; rfl)
    intro x hm
    unfold liveRefs at *
    have hst : (m.push (.nack k taken)).stack = .nack k taken :: n.stack := by rw [e]; rfl
    rw [hst] at hm
    rcases List.mem_append.mp hm with hm | hm
    · have := extract_count hx x
      have h1 : x ∈ m.pit := hm
      have := List.count_pos_iff.mpr h1
      exact List.mem_append_left _ (List.count_pos_iff.mp (by omega))
    · rcases List.mem_append.mp hm with hm | hm
      · exact List.mem_append_left _ (hc x hm).2
      · exact List.mem_append_right _ hm
  | takeLost p m taken hx =>
    have e := (extract_eq hx).2
    refine same ?_ (fun h => by rw [e]; exact h) (by rw [e]; exact Nat.le_refl _) (fun h => by rw [e] at h; exact h) (by rw [e]; rfl)
    intro x hm
    unfold liveRefs at *
    have hst : n'.stack = n.stack := by rw [e]
    rw [hst] at hm
    rcases List.mem_append.mp hm with hm | hm
    · have := extract_count hx x
      have := List.count_pos_iff.mpr hm
      exact List.mem_append_left _ (List.count_pos_iff.mp (by omega))
    · exact List.mem_append_right _ hm
  | timer now e es s h hd hle => exact run { n with delayed := es } e now rfl rfl rfl rfl rfl rfl rfl rfl
  | fire k e ha hk hle => exact run { n with loopTimers := n.loopTimers.eraseIdx k } e n.now rfl rfl rfl rfl rfl rfl rfl rfl
  | alloc =>
    refine ⟨hd.refs, ?_, htr⟩
    rcases hd.future with h | ⟨h, h', h''⟩
    · exact .inl h
    · refine .inr ⟨Nat.le_succ_of_le h, fun hm => ?_, h''⟩
      rcases List.mem_append.mp hm with hm | hm
      · exact h' hm
      · have := List.mem_singleton.mp hm
        omega
  | exprDirect a o htk hst ho =>
    refine helper (n.emit (.called a.id)) a o rfl rfl rfl rfl rfl rfl (fun b hb => hb) ho.1 ?_ ?_ rfl
    · intro hai
      rcases hd.future with h | ⟨_, h', _⟩
      · exact h
      · exact absurd (hai ▸ htk.1) h'
    · rintro rfl
      have h1 := hi.id.once a.id
      have h2 := consume_count (n := n.emit (.called a.id)) htk a.id
      have h3 := List.count_pos_iff.mpr (id_mem_argIds a)
      unfold idCount at h1
      have e2 : (n.emit (.called a.id)).tokens = n.tokens := rfl
      rw [e2] at h2
      refine ⟨hi.base.tokens _ htk.1, fun hm => ?_, fun b hb hbi => ?_⟩
      · have := List.count_pos_iff.mpr hm
        omega
      · have : a.id ∈ n.waiting.flatMap argIds := List.mem_flatMap.mpr ⟨b, hb, hbi ▸ id_mem_argIds b⟩
        have := List.count_pos_iff.mpr this
        have := List.count_pos_iff.mpr htk.1
        omega
  | exprQueue a c htk hst ha =>
    have hw : ∀ b, b ∈ (n.queue ++ [a]).drop n.next → b ∈ n.waiting ∨ b = a := by
      intro b hb
      rw [List.drop_append] at hb
      rcases List.mem_append.mp hb with hb | hb
      · exact .inl hb
      · exact .inr (List.mem_singleton.mp (List.mem_of_mem_drop hb))
    refine ⟨hd.refs, ?_, htr⟩
    rcases hd.future with h | ⟨h, h', h''⟩
    · exact .inl h
    · refine .inr ⟨h, fun hm => h' ((consume_tokens (n.emit (.called a.id)) a).subset hm), fun b hb => ?_⟩
      rcases hw b hb with hb | rfl
      · exact h'' b hb
      · intro hbi
        exact h' (hbi ▸ htk.1)
  | exprFail a htk ha =>
    exact same (live rfl rfl) (fun h => h) (Nat.le_refl _) (fun h => (consume_tokens (n.emit (.called a.id)) a).subset h) rfl
  | runQueue a o s h hq ho =>
    have hw := waiting_cons hq
    refine helper { n with next := n.next + 1 } a o rfl rfl rfl rfl rfl rfl (fun b hb => by rw [hw]; exact List.mem_cons_of_mem _ hb) ho.1 ?_ ?_ rfl
    · intro hai
      rcases hd.future with h | ⟨_, _, h'⟩
      · exact h
      · exact absurd hai (h' a (by rw [hw]; exact List.mem_cons_self ..))
    · rintro rfl
      have h1 := hi.id.once a.id
      have h3 := List.count_pos_iff.mpr (id_mem_argIds a)
      unfold idCount at h1
      rw [hw, List.flatMap_cons, List.count_append] at h1
      refine ⟨?_, fun hm => ?_, fun b hb hbi => ?_⟩
      · have := hi.call.waiting a (by rw [hw]; exact List.mem_cons_self ..)
        exact hi.call.bound _ this
      · have h4 : a.id ∈ n.tokens := (consume_tokens { n with next := n.next + 1 } a).subset hm
        have := List.count_pos_iff.mpr h4
        omega
      · have : a.id ∈ (n.queue.drop (n.next + 1)).flatMap argIds := List.mem_flatMap.mpr ⟨b, hb, hbi ▸ id_mem_argIds b⟩
        have := List.count_pos_iff.mpr this
        omega
  | queueDone s h hq =>
    refine ⟨?_, ?_, htr⟩
    · intro r hr a ha
      refine hd.refs r ?_ a ha
      unfold liveRefs at *
      rw [h]
      exact hr
    · rcases hd.future with h | ⟨h, h', _⟩
      · exact .inl h
      · exact .inr ⟨h, h', fun a ha => by change a ∈ [] at ha; cases ha⟩
  | removePending id' =>
    rw [removePending_eq] at same ⊢
    refine same ?_ ?_ (Nat.le_refl _) (fun h => h) rfl
    · intro r hr
      unfold liveRefs at *
      rcases List.mem_append.mp hr with hr | hr
      · exact List.mem_append_left _ (List.mem_filter.mp hr).1
      · exact List.mem_append_right _ hr
    · intro h
      dsimp only
      split
      · exact List.mem_append_left _ h
      · exact h
  | removeRegistered id' =>
    rw [removeRegistered_eq] at same live ⊢
    exact same (live rfl rfl) (fun h => h) (Nat.le_refl _) (fun h => h) rfl
  | setFilter id' p r htk => exact same (live rfl rfl) (fun h => h) (Nat.le_refl _) (fun h => List.erase_subset h) rfl
  | unset id' => exact same (live rfl rfl) (fun h => h) (Nat.le_refl _) (fun h => h) rfl
  | dispatch i fs hm ho => exact same (live rfl rfl) (fun h => h) (Nat.le_refl _) (fun h => h) rfl
  | later d =>
    obtain ⟨dl, lt, e, _⟩ := callLater_form C n d .app
    rw [e] at same live ⊢
    exact same (live rfl rfl) (fun h => h) (Nat.le_refl _) (fun h => h) rfl
  | note e he => exact same (live rfl rfl) (fun h => h) (Nat.le_refl _) (fun h => h) rfl

theorem mem_beingDelivered {n : Node} {r : Nat} (h : r ∈ frameRefs n.stack) : n.idOf r ∈ n.beingDelivered := by
  unfold beingDelivered
  generalize n.stack = s at h
  induction s with
  | nil => cases h
  | cons f s ih =>
    rw [List.flatMap_cons, List.mem_append]
    cases f with
    | deliver d rest =>
      rcases List.mem_append.mp h with h | h
      · exact .inl (List.mem_map.mpr ⟨r, h, rfl⟩)
      · exact .inr (ih h)
    | nack d rest =>
      rcases List.mem_append.mp h with h | h
      · exact .inl (List.mem_map.mpr ⟨r, h, rfl⟩)
      · exact .inr (ih h)
    | _ => exact .inr (ih h)

theorem removed_core {C : NodeConfig} {n : Node} (hi : Inv C n) (id : Nat) (ht : Ev.removeCalled id ∈ n.trace) (hd : id ∉ n.beingDelivered) (as : List Action) :
    ((n.removePendingInterest id).run C as).trace.filter (isCallbackOf id) = n.trace.filter (isCallbackOf id) := by
  have hinv : Inv C (n.removePendingInterest id) := inv_prim (.removePending n id ht) hi
  have idArgs : ∀ r a, n.args[r]? = some a → n.idOf r = a.id := by
    intro r a h; rw [idOf_args, h]; rfl
  refine (later_induction (P := Dead id (n.trace.filter (isCallbackOf id))) (fun _ _ hi hp hd => dead_prim hi hp hd) hinv ?_ as).trace
  rw [removePending_eq]
  have hargs : (args { n with pit := n.pit.filter (fun r => decide (¬ n.idOf r = id)), entries := markAll n.entries (n.pit.filter (fun r => decide (n.idOf r = id))),
                              removeRequests := (if n.pit.filter (fun r => decide (n.idOf r = id)) = [] ∧ id ∉ n.removeRequests then n.removeRequests ++ [id] else n.removeRequests) }) = n.args := markAll_args _ _
  refine ⟨?_, ?_, rfl⟩
  · intro r hr a ha
    rw [hargs] at ha
    have := idArgs r a ha
    unfold liveRefs at hr
    rcases List.mem_append.mp hr with hr | hr
    · have := (List.mem_filter.mp hr).2
      simp only [decide_eq_true_eq] at this
      rwa [idArgs r a ha] at this
    · intro h
      have h1 := mem_beingDelivered (n := n) hr
      rw [idArgs r a ha, h] at h1
      exact hd h1
  · dsimp only
    by_cases hg : n.pit.filter (fun r => decide (n.idOf r = id)) = []
    · refine .inl ?_
      by_cases hm : id ∈ n.removeRequests
      · simp [hm]
      · simp only [hg, hm, not_false_eq_true, and_self, if_true]
        exact List.mem_append_right _ (List.mem_singleton.mpr rfl)
    · obtain ⟨r, l, hl⟩ := List.exists_cons_of_ne_nil hg
      have hrm : r ∈ n.pit.filter (fun r => decide (n.idOf r = id)) := by rw [hl]; exact List.mem_cons_self ..
      obtain ⟨hp, hid⟩ := List.mem_filter.mp hrm
      simp only [decide_eq_true_eq] at hid
      have hlt : r < n.entries.length := hi.ref.bound r (by have := List.count_pos_iff.mpr hp; unfold refCount; omega)
      have hge : n.args[r]? = some n.entries[r].args := by rw [args_get, List.getElem?_eq_getElem hlt]; rfl
      have hid' : n.entries[r].args.id = id := by rw [← idArgs r _ hge]; exact hid
      have hpos : ((n.entries.map (·.args)).flatMap argIds).count id ≥ 1 := by
        refine List.count_pos_iff.mpr (List.mem_flatMap.mpr ⟨n.entries[r].args, List.mem_of_getElem? hge, ?_⟩)
        rw [← hid']; exact id_mem_argIds _
      have h1 := hi.id.once id
      have h2 := hi.id.bound id (by unfold idCount; omega)
      unfold idCount at h1
      refine .inr ⟨h2.2, fun hm => ?_, fun a hm hai => ?_⟩
      · have := List.count_pos_iff.mpr hm; omega
      · have hm' : a ∈ n.waiting := hm
        have : id ∈ n.waiting.flatMap argIds := List.mem_flatMap.mpr ⟨a, hm', hai ▸ id_mem_argIds a⟩
        have := List.count_pos_iff.mpr this
        omega

/-- Once `removePendingInterest(id)` has returned, no callback of the Interest with that id is called, whatever
happens after; also when the Interest is not on the table yet.  Except when the library is just passing a
packet to this Interest: see `C30_during_delivery`. -/
theorem C30_removed_partial {C : NodeConfig} {n : Node} (hr : Reachable C n) (ha : n.appRuns) (id : Nat) (hd : id ∉ n.beingDelivered) (as : List Action) :
    ((n.step C (.removePendingInterest id)).run C as).trace.filter (isCallbackOf id) = n.trace.filter (isCallbackOf id) := by
  have hi := reachable_inv hr
  obtain ⟨c, s, hst⟩ := ha
  have hstep : n.step C (.removePendingInterest id) = (n.emit (.removeCalled id)).removePendingInterest id := by
    unfold step; rw [hst]
  rw [hstep, removed_core (inv_prim (.note n _ (.inr (.inl ⟨id, rfl⟩))) hi) id (List.mem_append_right _ (List.mem_singleton.mpr rfl)) hd as]
  show (n.trace ++ [_]).filter _ = _
  rw [List.filter_append]
  simp [isCallbackOf]

end Node
end PyNDN
