import Verif.Lemmas.NodeInv
/-
What a primitive change does to the stack, the events and the entry objects; and that a loop over callbacks
calls all of them in order.
-/
namespace PyNDN
namespace Node

/-- The arguments of the entry objects. -/
def args (n : Node) : List ExpressArgs := n.entries.map (·.args)

/-- The library called a callback in a loop: the frame, what is left, and the event. -/
inductive Adv (n : Node) : Frame → Frame → List Ev → Prop
  | deliver (d : RxData) (r : Nat) (rest : List Nat) (a : ExpressArgs) (ha : n.args[r]? = some a) (evs : List Ev) (he : ∀ x ∈ evs, RegEv x) :
      Adv n (.deliver d (r :: rest)) (.deliver d rest) (.onData a.id r d :: evs)
  | deliverNone (d : RxData) (r : Nat) (rest : List Nat) (ha : n.args[r]? = none) : Adv n (.deliver d (r :: rest)) (.deliver d rest) []
  | nack (k : NetworkNack) (r : Nat) (rest : List Nat) : Adv n (.nack k (r :: rest)) (.nack k rest) [.onNack (n.idOf r) r k]
  | dispatch (i : Interest) (f : FilterEntry) (rest : List FilterEntry) : Adv n (.dispatch i (f :: rest)) (.dispatch i rest) [.onInterest f.id i]

/-- Events that are not calls of `onData`, `onNack` or `onInterest`. -/
def Quiet : Ev → Prop
  | .onData _ _ _ => False
  | .onNack _ _ _ => False
  | .onInterest _ _ => False
  | _ => True

theorem quiet_reg {evs : List Ev} (h : ∀ x ∈ evs, RegEv x) : ∀ x ∈ evs, Quiet x := by
  intro x hx
  rcases h x hx with ⟨r, rfl⟩ | ⟨r, rfl⟩ | ⟨f, rfl⟩ <;> trivial

theorem extractRev_taken (p : Nat → Except Err Bool) (l : List Nat) : ∀ r ∈ (extractRev p l).2.1, p r = .ok true ∧ r ∈ l := by
  induction l with
  | nil => intro r h; cases h
  | cons x l ih =>
    intro r
    unfold extractRev
    split
    · intro h; cases h
    · next b hb =>
      generalize extractRev p l = y at ih
      obtain ⟨k, t, q⟩ := y
      dsimp only at ih ⊢
      split
      · next h =>
        intro hr
        rcases List.mem_cons.mp hr with rfl | hr
        · exact ⟨by rw [hb, h], List.mem_cons_self ..⟩
        · exact ⟨(ih r hr).1, List.mem_cons_of_mem _ (ih r hr).2⟩
      · exact fun hr => ⟨(ih r hr).1, List.mem_cons_of_mem _ (ih r hr).2⟩

theorem extract_taken {n n' : Node} {p : Nat → Except Err Bool} {taken : List Nat} {b : Bool} (h : n.extract p = (n', taken, b)) :
    ∀ r ∈ taken, p r = .ok true ∧ r ∈ n.pit := by
  have := extractRev_taken p n.pit.reverse
  rw [(extract_eq h).1] at this
  exact fun r hr => ⟨(this r hr).1, List.mem_reverse.mp (this r hr).2⟩

theorem matchedFilters_ok {C : NodeConfig} {name : Name} {l fs : List FilterEntry} (h : matchedFilters C name l = .ok fs) :
    fs = l.filter (fun f => decide (doesMatch C f name = .ok true)) ∧ ∀ f ∈ l, ∃ b, doesMatch C f name = .ok b := by
  induction l generalizing fs with
  | nil => cases h; exact ⟨rfl, fun f hf => by cases hf⟩
  | cons x l ih =>
    unfold matchedFilters at h
    cases hx : doesMatch C x name with
    | error e => rw [hx] at h; cases h
    | ok b =>
      rw [hx] at h
      cases hr : matchedFilters C name l with
      | error e => rw [hr] at h; cases h
      | ok gs =>
        rw [hr] at h
        obtain ⟨h1, h2⟩ := ih hr
        refine ⟨?_, ?_⟩
        · cases b with
          | true =>
            cases h
            rw [List.filter_cons_of_pos (by simp [hx]), h1]
          | false =>
            cases h
            rw [List.filter_cons_of_neg (by simp [hx]), h1]
        · intro f hf
          rcases List.mem_cons.mp hf with rfl | hf
          · exact ⟨b, hx⟩
          · exact h2 f hf

/-- What a frame that is pushed refers to. -/
def FrameOk (C : NodeConfig) (n : Node) : Frame → Prop
  | .deliver d l => ∀ r ∈ l, n.matchesEntry d r = .ok true ∧ r ∈ n.pit
  | .nack _ l => ∀ r ∈ l, (∃ w, n.nackEntry w r = .ok true) ∧ r ∈ n.pit
  | .dispatch i l => l = n.filters.filter (fun f => decide (doesMatch C f i.name = .ok true))
  | _ => True

/-- What a primitive change does to the stack. -/
inductive Shape (C : NodeConfig) (n n' : Node) : Prop
  | same (h : n'.stack = n.stack) (evs : List Ev) (ht : n'.trace = n.trace ++ evs) (hq : ∀ x ∈ evs, Quiet x)
  | push (f : Frame) (h : n'.stack = f :: n.stack) (hf : FrameOk C n f) (evs : List Ev) (ht : n'.trace = n.trace ++ evs) (hq : ∀ x ∈ evs, Quiet x)
  | pop (f : Frame) (s : List Frame) (h : n.stack = f :: s) (h' : n'.stack = s) (hd : Frame.done f = true) (ht : n'.trace = n.trace)
  | adv (f f' : Frame) (s : List Frame) (evs : List Ev) (h : n.stack = f :: s) (h' : n'.stack = f' :: s ∨ n'.stack = .app .guarded :: f' :: s)
      (ha : Adv n f f' evs) (ht : n'.trace = n.trace ++ evs)

theorem args_get (n : Node) (r : Nat) : n.args[r]? = (n.entries[r]?).map (·.args) := by
  unfold args; rw [List.getElem?_map]

theorem prim_shape {C : NodeConfig} {n n' : Node} (h : Prim C n n') : Shape C n n' := by
  have same : ∀ m : Node, m.stack = n.stack → m.trace = n.trace → Shape C n m := fun m h1 h2 =>
    .same h1 [] (by rw [h2, List.append_nil]) (by simp)
  have one : ∀ e : Ev, Quiet e → ∀ x ∈ [e], Quiet x := fun e he x hx => by rw [List.mem_singleton.mp hx]; exact he
  have run : ∀ (m : Node) (e : DelayedEntry) (now : Int), m.stack = n.stack → m.trace = n.trace → Shape C n (m.runDelayed e now) := by
    intro m e now h1 h2
    rcases runDelayed_form m e now with ⟨_, e'⟩ | ⟨r, _, _, e'⟩ | ⟨r, x, _, hx, hr, hp, ⟨_, e'⟩ | ⟨_, evs, hevs, e'⟩⟩
    · rw [e']; exact .push (.app .unguarded) (by rw [← h1]) trivial _ (by rw [← h2]) (one (.ran e.seq now) trivial)
    · rw [e']; exact .same h1 _ (by rw [← h2]) (one (.ran e.seq now) trivial)
    · rw [e']; exact .same h1 _ (by rw [← h2]) (one (.ran e.seq now) trivial)
    · rw [e']
      refine .push (.app .guarded) (by rw [← h1]) trivial ([.ran e.seq now, .onTimeout x.args.id r] ++ evs) (by rw [← h2]; simp) ?_
      intro y hy
      rcases List.mem_append.mp hy with hy | hy
      · simp at hy; rcases hy with rfl | rfl <;> trivial
      · exact quiet_reg hevs y hy
  have helper : ∀ (m : Node) (a : ExpressArgs) (o : Outcome) (evs : List Ev), m.stack = n.stack → m.trace = n.trace ++ evs → (∀ x ∈ evs, Quiet x) →
      Shape C n (m.helperCore C a o) := by
    intro m a o evs h1 h2 h3
    rcases helperCore_form C m a o with ⟨_, e⟩ | ⟨_, sq, dl, lt, evs', e, hevs⟩
    · rw [e]
      refine .same h1 (evs ++ [.helper a.id o]) (by dsimp only; rw [h2]; simp) ?_
      intro x hx
      rcases List.mem_append.mp hx with hx | hx
      · exact h3 x hx
      · exact one (.helper a.id o) trivial x hx
    · rw [e]
      refine .same h1 (evs ++ evs' ++ [.helper a.id o]) (by dsimp only; rw [h2]; simp) ?_
      intro x hx
      rcases List.mem_append.mp hx with hx | hx
      · rcases List.mem_append.mp hx with hx | hx
        · exact h3 x hx
        · rcases hevs with rfl | ⟨k, t, rfl⟩
          · simp at hx
          · exact one (.scheduled k t) trivial x hx
      · exact one (.helper a.id o) trivial x hx
  cases h with
  | misc => exact same _ rfl rfl
  | push f ho hf => exact .push f rfl (by rcases hf with ⟨c, rfl⟩ | ⟨t, rfl⟩ | ⟨rfl, _⟩ | ⟨rfl, _⟩ <;> trivial) [] (by simp [push]) (by simp)
  | drop f s h hd hm => exact .pop f s h rfl hd rfl
  | setComplete s h => exact .pop _ s h rfl rfl rfl
  | callData d r rest s h =>
    rcases callOnData_form { n with stack := .deliver d rest :: s } r d with ⟨hn, e⟩ | ⟨x, hx, k, fs, ps, rr, evs, st, e, hevs, hst, _⟩
    · rw [e]; exact .adv _ _ s [] h (.inl rfl) (.deliverNone d r rest (by rw [args_get, hn]; rfl)) (by simp)
    · rw [e]; exact .adv _ _ s _ h hst (.deliver d r rest x.args (by rw [args_get, hx]; rfl) evs hevs) (by simp)
  | callNack k r rest s h => exact .adv _ _ s _ h (.inr rfl) (.nack k r rest) rfl
  | callFilter i f rest s h => exact .adv _ _ s _ h (.inr rfl) (.dispatch i f rest) rfl
  | takeData d n' taken ha hx => rw [(extract_eq hx).2]; exact .push (.deliver d taken) rfl (extract_taken hx) [] (by simp [push]) (by simp)
  | takeNack k w n' taken ha hx => rw [(extract_eq hx).2]; exact .push (.nack k taken) rfl (fun r hr => ⟨⟨w, (extract_taken hx r hr).1⟩, (extract_taken hx r hr).2⟩) [] (by simp [push]) (by simp)
  | takeLost p n' taken hx => rw [(extract_eq hx).2]; exact same _ rfl rfl
  | timer now e es s h hd hle => exact run _ e now rfl rfl
  | fire k e ha hk hle => exact run _ e _ rfl rfl
  | alloc => exact same _ rfl rfl
  | exprDirect a o htk hst ho => exact helper _ a o [.called a.id] rfl rfl (one (.called a.id) trivial)
  | exprQueue a c htk hst ha => exact .same rfl [.called a.id] rfl (one (.called a.id) trivial)
  | exprFail a htk ha => exact .same rfl [.called a.id] rfl (one (.called a.id) trivial)
  | runQueue a o s h hq ho => exact helper _ a o [] rfl (by simp) (by simp)
  | queueDone s h hq => exact .pop _ s h rfl rfl rfl
  | removePending id => rw [removePending_eq]; exact same _ rfl rfl
  | removeRegistered id => rw [removeRegistered_eq]; exact same _ rfl rfl
  | setFilter id p r htk => exact .same rfl [_] rfl (one _ trivial)
  | unset id => exact same _ rfl rfl
  | dispatch i fs hm ho => exact .push (.dispatch i fs) rfl (matchedFilters_ok hm).1 [] (by simp [push]) (by simp)
  | later d =>
    obtain ⟨dl, lt, e, _⟩ := callLater_form C n d .app
    rw [e]
    exact .same rfl [_] rfl (one (.scheduled n.seq (n.now + d)) trivial)
  | note e he => rcases he with ⟨w, rfl, _⟩ | ⟨i, rfl⟩ | rfl | rfl | ⟨j, rfl⟩ <;> exact .same rfl [_] rfl (one _ trivial)

/-- The arguments of entry objects never change. -/
theorem prim_args {C : NodeConfig} {n n' : Node} (h : Prim C n n') : n.args <+: n'.args := by
  have same : ∀ m : Node, m.entries.map (·.args) = n.entries.map (·.args) → n.args <+: m.args := fun m h => by
    unfold args; rw [h]; exact List.prefix_refl _
  have run : ∀ (m : Node) (e : DelayedEntry) (now : Int), m.entries = n.entries → n.args <+: (m.runDelayed e now).args := by
    intro m e now h1
    rcases runDelayed_form m e now with ⟨_, e'⟩ | ⟨r, _, _, e'⟩ | ⟨r, x, _, hx, hr, hp, ⟨_, e'⟩ | ⟨_, evs, _, e'⟩⟩
    · rw [e']; exact same _ (by rw [← h1])
    · rw [e']; exact same _ (by rw [← h1])
    · rw [e']; exact same _ (by rw [← h1]; exact markAll_args _ _)
    · rw [e']; exact same _ (by rw [← h1]; exact markAll_args _ _)
  have helper : ∀ (m : Node) (a : ExpressArgs) (o : Outcome), m.entries = n.entries → n.args <+: (m.helperCore C a o).args := by
    intro m a o h1
    rcases helperCore_form C m a o with ⟨_, e⟩ | ⟨_, sq, dl, lt, evs', e, hevs⟩
    · rw [e]; exact same _ (by rw [← h1])
    · rw [e]
      unfold args
      dsimp only
      rw [h1, List.map_append]
      exact List.prefix_append _ _
  cases h with
  | callData d r rest s h =>
    rcases callOnData_form { n with stack := .deliver d rest :: s } r d with ⟨hn, e⟩ | ⟨x, hx, k, fs, ps, rr, evs, st, e, _⟩ <;> rw [e] <;> exact same _ rfl
  | takeData d n' taken ha hx => rw [(extract_eq hx).2]; exact same _ (markAll_args _ _)
  | takeNack k w n' taken ha hx => rw [(extract_eq hx).2]; exact same _ (markAll_args _ _)
  | takeLost p n' taken hx => rw [(extract_eq hx).2]; exact same _ (markAll_args _ _)
  | timer now e es s h hd hle => exact run _ e now rfl
  | fire k e ha hk hle => exact run _ e _ rfl
  | exprDirect a o htk hst ho => exact helper _ a o rfl
  | runQueue a o s h hq ho => exact helper _ a o rfl
  | removePending id => rw [removePending_eq]; exact same _ (markAll_args _ _)
  | removeRegistered id => rw [removeRegistered_eq]; exact same _ rfl
  | later d => obtain ⟨dl, lt, e, _⟩ := callLater_form C n d .app; rw [e]; exact same _ rfl
  | _ => exact same _ rfl

/-- The calls that a frame still has to make, when the entry objects have these arguments. -/
def todo (as : List ExpressArgs) : Frame → List Ev
  | .deliver d rest => rest.map (fun r => .onData ((as[r]?.map (·.id)).getD 0) r d)
  | .nack k rest => rest.map (fun r => .onNack ((as[r]?.map (·.id)).getD 0) r k)
  | .dispatch i rest => rest.map (fun f => .onInterest f.id i)
  | _ => []

/-- The entry objects that a frame refers to exist. -/
def refsOk (len : Nat) : Frame → Prop
  | .deliver _ rest => ∀ r ∈ rest, r < len
  | .nack _ rest => ∀ r ∈ rest, r < len
  | _ => True

theorem idOf_args (n : Node) (r : Nat) : n.idOf r = (n.args[r]?.map (·.id)).getD 0 := by
  unfold idOf; rw [args_get, Option.map_map]; rfl

/-- A loop that is on the stack above `base`, or that made all its calls. -/
def Loop (as : List ExpressArgs) (all : List Ev) (old : List Ev) (base : List Frame) (m : Node) : Prop :=
  as <+: m.args ∧ ∃ new, m.trace = old ++ new ∧
    ((∃ pre f done, m.stack = pre ++ f :: base ∧ all = done ++ todo as f ∧ refsOk as.length f ∧ done.Sublist new) ∨ all.Sublist new)

theorem todo_done {as : List ExpressArgs} {f : Frame} (h : Frame.done f = true) : todo as f = [] := by
  cases f with
  | deliver d l => cases l with
    | nil => rfl
    | cons a l => cases h
  | nack d l => cases l with
    | nil => rfl
    | cons a l => cases h
  | dispatch i l => cases l with
    | nil => rfl
    | cons a l => cases h
  | _ => rfl

theorem loop_prim {C : NodeConfig} {n n' : Node} {as : List ExpressArgs} {all old : List Ev} {base : List Frame} (h : Prim C n n')
    (hi : Loop as all old base n) : Loop as all old base n' := by
  obtain ⟨hp, new, hnew, hl⟩ := hi
  have hp' := hp.trans (prim_args h)
  have get : ∀ {r : Nat}, r < as.length → n.args[r]? = as[r]? := by
    intro r hr
    obtain ⟨t, ht⟩ := hp
    rw [← ht, List.getElem?_append_left hr]
  cases prim_shape h with
  | same h1 evs ht hq =>
    refine ⟨hp', new ++ evs, by rw [ht, hnew, List.append_assoc], ?_⟩
    rcases hl with ⟨pre, f, done, h2, h3, h4, h5⟩ | h2
    · exact .inl ⟨pre, f, done, by rw [h1, h2], h3, h4, h5.trans (List.sublist_append_left _ _)⟩
    · exact .inr (h2.trans (List.sublist_append_left _ _))
  | push g h1 hf evs ht hq =>
    refine ⟨hp', new ++ evs, by rw [ht, hnew, List.append_assoc], ?_⟩
    rcases hl with ⟨pre, f, done, h2, h3, h4, h5⟩ | h2
    · exact .inl ⟨g :: pre, f, done, by rw [h1, h2]; rfl, h3, h4, h5.trans (List.sublist_append_left _ _)⟩
    · exact .inr (h2.trans (List.sublist_append_left _ _))
  | pop g s h1 h1' hd ht =>
    refine ⟨hp', new, by rw [ht, hnew], ?_⟩
    rcases hl with ⟨pre, f, done, h2, h3, h4, h5⟩ | h2
    · cases pre with
      | nil =>
        rw [h1] at h2
        simp only [List.nil_append, List.cons.injEq] at h2
        obtain ⟨rfl, rfl⟩ := h2
        refine .inr ?_
        rw [h3, todo_done hd, List.append_nil]
        exact h5
      | cons x pre =>
        rw [h1, List.cons_append, List.cons.injEq] at h2
        exact .inl ⟨pre, f, done, by rw [h1', h2.2], h3, h4, h5⟩
    · exact .inr h2
  | adv g g' s evs h1 h1' ha ht =>
    refine ⟨hp', new ++ evs, by rw [ht, hnew, List.append_assoc], ?_⟩
    rcases hl with ⟨pre, f, done, h2, h3, h4, h5⟩ | h2
    · cases pre with
      | nil =>
        rw [h1] at h2
        simp only [List.nil_append, List.cons.injEq] at h2
        obtain ⟨rfl, rfl⟩ := h2
        have hstack : ∃ pre, n'.stack = pre ++ g' :: s := by
          rcases h1' with h | h
          · exact ⟨[], h⟩
          · exact ⟨[.app .guarded], h⟩
        obtain ⟨pre, hstack⟩ := hstack
        have step : ∃ e, todo as g = e :: todo as g' ∧ refsOk as.length g' ∧ ∃ evs', evs = e :: evs' := by
          cases ha with
          | deliver d r rest a ha evs he =>
            have hr : r < as.length := h4 r (List.mem_cons_self ..)
            rw [get hr] at ha
            exact ⟨_, rfl, fun x hx => h4 x (List.mem_cons_of_mem _ hx), evs, by dsimp only; rw [ha]; rfl⟩
          | deliverNone d r rest ha =>
            have hr : r < as.length := h4 r (List.mem_cons_self ..)
            rw [get hr, List.getElem?_eq_getElem hr] at ha
            cases ha
          | nack k r rest =>
            have hr : r < as.length := h4 r (List.mem_cons_self ..)
            exact ⟨_, rfl, fun x hx => h4 x (List.mem_cons_of_mem _ hx), [], by rw [idOf_args, get hr]⟩
          | dispatch i f rest => exact ⟨_, rfl, trivial, [], rfl⟩
        obtain ⟨e, e1, e2, evs', e3⟩ := step
        refine .inl ⟨pre, g', done ++ [e], hstack, by rw [h3, e1]; simp, e2, ?_⟩
        rw [e3]
        exact h5.append (List.cons_sublist_cons.mpr (List.nil_sublist _))
      | cons x pre =>
        rw [h1, List.cons_append, List.cons.injEq] at h2
        refine .inl ?_
        rcases h1' with h | h
        · exact ⟨g' :: pre, f, done, by rw [h, h2.2]; rfl, h3, h4, h5.trans (List.sublist_append_left _ _)⟩
        · exact ⟨.app .guarded :: g' :: pre, f, done, by rw [h, h2.2]; rfl, h3, h4, h5.trans (List.sublist_append_left _ _)⟩
    · exact .inr (h2.trans (List.sublist_append_left _ _))

/-- When a loop that started above `base` is over, it made all its calls, in order. -/
theorem loop_done {C : NodeConfig} {n : Node} (hi : Inv C n) {f : Frame} {base : List Frame} (h : n.stack = f :: base) (hr : refsOk n.entries.length f)
    (as : List Action) (hlen : (n.run C as).stack.length ≤ base.length) :
    ∃ new, (n.run C as).trace = n.trace ++ new ∧ (todo n.args f).Sublist new := by
  have hl : Loop n.args (todo n.args f) n.trace base n :=
    ⟨List.prefix_refl _, [], by simp, .inl ⟨[], f, [], h, by simp, by unfold args; simpa using hr, List.Sublist.refl _⟩⟩
  obtain ⟨_, new, h1, h2⟩ := later_induction (P := Loop n.args (todo n.args f) n.trace base) (fun _ _ _ hp hl => loop_prim hp hl) hi hl as
  refine ⟨new, h1, ?_⟩
  rcases h2 with ⟨pre, g, done, h2, _⟩ | h2
  · rw [h2] at hlen
    simp at hlen
    omega
  · exact h2

end Node
end PyNDN
