import Verif.Lemmas.NodeLoop
import Verif.Spec.Node
/-
C28: at most one callback per expressed Interest.  C29: Data goes to the matching pending Interests.
C30: removePendingInterest.  C45: Nacks.
-/
namespace PyNDN
namespace Node

/-! ## C28 -/

theorem cbRefs_filter (id : Nat) (t : List Ev) : (cbRefs (t.filter (isCallbackOf id))).Sublist (cbRefs t) ∧
    (cbRefs (t.filter (isCallbackOf id))).length = (t.filter (isCallbackOf id)).length := by
  induction t with
  | nil => exact ⟨List.Sublist.refl _, rfl⟩
  | cons e t ih =>
    by_cases hb : isCallbackOf id e = true
    · rw [List.filter_cons_of_pos hb]
      cases e <;> first
        | cases hb
        | exact ⟨ih.1.cons_cons _, congrArg (· + 1) ih.2⟩
    · rw [List.filter_cons_of_neg hb]
      cases e <;> first
        | exact ih
        | exact ⟨ih.1.cons _, ih.2⟩

theorem mem_cbRefs {t : List Ev} {r : Nat} (h : r ∈ cbRefs t) :
    ∃ i, (∃ d, Ev.onData i r d ∈ t) ∨ Ev.onTimeout i r ∈ t ∨ (∃ k, Ev.onNack i r k ∈ t) := by
  induction t with
  | nil => cases h
  | cons e t ih =>
    have tail : r ∈ cbRefs t → ∃ i, (∃ d, Ev.onData i r d ∈ e :: t) ∨ Ev.onTimeout i r ∈ e :: t ∨ (∃ k, Ev.onNack i r k ∈ e :: t) := by
      intro h
      obtain ⟨i, h⟩ := ih h
      refine ⟨i, ?_⟩
      rcases h with ⟨d, h⟩ | h | ⟨k, h⟩
      · exact .inl ⟨d, List.mem_cons_of_mem _ h⟩
      · exact .inr (.inl (List.mem_cons_of_mem _ h))
      · exact .inr (.inr ⟨k, List.mem_cons_of_mem _ h⟩)
    cases e <;> simp only [cbRefs] at h <;> try exact tail h
    · rcases List.mem_cons.mp h with rfl | h
      · exact ⟨_, .inl ⟨_, List.mem_cons_self ..⟩⟩
      · exact tail h
    · rcases List.mem_cons.mp h with rfl | h
      · exact ⟨_, .inr (.inl (List.mem_cons_self ..))⟩
      · exact tail h
    · rcases List.mem_cons.mp h with rfl | h
      · exact ⟨_, .inr (.inr ⟨_, List.mem_cons_self ..⟩)⟩
      · exact tail h

/-- A callback event names the entry object with its id. -/
theorem callback_entry {n : Node} (hi : RefInv n) {id r : Nat} (h : r ∈ cbRefs (n.trace.filter (isCallbackOf id))) :
    ∃ e, n.entries[r]? = some e ∧ e.args.id = id := by
  obtain ⟨i, h⟩ := mem_cbRefs h
  have : (n.entries[r]?).map (·.args.id) = some i ∧ i = id := by
    rcases h with ⟨d, h⟩ | h | ⟨k, h⟩
    all_goals
      obtain ⟨h1, h2⟩ := List.mem_filter.mp h
      exact ⟨hi.ev _ h1, by simpa [isCallbackOf] using h2⟩
  obtain ⟨h1, rfl⟩ := this
  cases he : n.entries[r]? with
  | none => rw [he] at h1; cases h1
  | some e => rw [he] at h1; exact ⟨e, rfl, by simpa using h1⟩

/-- In every execution, each Interest gets at most one of `onData`, `onTimeout`, `onNetworkNack`, at most once. -/
theorem C28_at_most_one_callback (C : NodeConfig) (as : List Action) (id : Nat) :
    ((run C {} as).trace.filter (isCallbackOf id)).length ≤ 1 := by
  have hi := reachable_inv (C := C) ⟨as, rfl⟩
  generalize run C {} as = n at hi
  obtain ⟨h1, h2⟩ := cbRefs_filter id n.trace
  rw [← h2]
  have hall := fun r h => callback_entry (id := id) (r := r) hi.ref h
  have hcount : ∀ r, (cbRefs (n.trace.filter (isCallbackOf id))).count r ≤ 1 := by
    intro r
    have := h1.count_le r
    have := hi.ref.once r
    unfold refCount at this
    omega
  revert hall hcount
  generalize cbRefs (n.trace.filter (isCallbackOf id)) = l
  intro hall hcount
  match l, hall, hcount with
  | [], _, _ => exact Nat.zero_le _
  | [_], _, _ => exact Nat.le_refl _
  | a :: b :: l, hall, hcount =>
    exfalso
    obtain ⟨x, hx, ex⟩ := hall a (List.mem_cons_self ..)
    obtain ⟨y, hy, ey⟩ := hall b (List.mem_cons_of_mem _ (List.mem_cons_self ..))
    have : a = b := entry_unique hi hx hy (i := id) (ex ▸ id_mem_argIds _) (ey ▸ id_mem_argIds _)
    subst this
    have := hcount a
    simp at this

/-- Callbacks are only for Interests that were expressed, and an id is given to one call of
`expressInterest`. -/
theorem C28_only_for_expressed (C : NodeConfig) (as : List Action) (id : Nat) :
    (calledIds (run C {} as).trace).count id ≤ 1 ∧
    ((run C {} as).trace.filter (isCallbackOf id) ≠ [] → id ∈ calledIds (run C {} as).trace) := by
  have hi := reachable_inv (C := C) ⟨as, rfl⟩
  generalize run C {} as = n at hi
  refine ⟨Nat.le_trans (Nat.le_add_right _ _) (hi.call.once id), fun h => ?_⟩
  obtain ⟨h1, h2⟩ := cbRefs_filter id n.trace
  have hne : cbRefs (n.trace.filter (isCallbackOf id)) ≠ [] := by
    intro h'
    rw [h'] at h2
    exact h (List.eq_nil_of_length_eq_zero h2.symm)
  obtain ⟨r, l, hl⟩ := List.exists_cons_of_ne_nil hne
  obtain ⟨e, he, rfl⟩ := callback_entry hi.ref (id := id) (r := r) (by rw [hl]; exact List.mem_cons_self ..)
  exact hi.call.entries _ (List.mem_map.mpr ⟨e, List.mem_of_getElem? he, rfl⟩)

/-! ## C29 -/

/-- The entry object `ref` matches the Data. -/
def Sat (n : Node) (r : Nat) (d : RxData) : Prop := ∃ a, n.args[r]? = some a ∧ a.interest.matchesData d.name d.full d.info = .ok true

structure MatchInv (n : Node) : Prop where
  ev : ∀ i r d, Ev.onData i r d ∈ n.trace → Sat n r d
  frame : ∀ d rest, Frame.deliver d rest ∈ n.stack → ∀ r ∈ rest, Sat n r d
  nackEv : ∀ i r k, Ev.onNack i r k ∈ n.trace → ∃ a, n.args[r]? = some a ∧ a.hasOnNack = true
  nackFrame : ∀ k rest, Frame.nack k rest ∈ n.stack → ∀ r ∈ rest, ∃ a, n.args[r]? = some a ∧ a.hasOnNack = true

theorem prefix_get {as bs : List ExpressArgs} (h : as <+: bs) {r : Nat} {a : ExpressArgs} (ha : as[r]? = some a) : bs[r]? = some a := by
  obtain ⟨t, rfl⟩ := h
  rw [List.getElem?_append_left (List.getElem?_eq_some_iff.mp ha).1]
  exact ha

theorem matchesEntry_sat {n : Node} {d : RxData} {r : Nat} (h : n.matchesEntry d r = .ok true) : Sat n r d := by
  unfold matchesEntry at h
  cases he : n.entries[r]? with
  | none => rw [he] at h; cases h
  | some e => rw [he] at h; exact ⟨e.args, by rw [args_get, he]; rfl, h⟩

theorem nackEntry_sat {n : Node} {w : Bytes} {r : Nat} (h : n.nackEntry w r = .ok true) : ∃ a, n.args[r]? = some a ∧ a.hasOnNack = true := by
  unfold nackEntry at h
  cases he : n.entries[r]? with
  | none => rw [he] at h; cases h
  | some e =>
    rw [he] at h
    refine ⟨e.args, by rw [args_get, he]; rfl, ?_⟩
    cases hn : e.args.hasOnNack with
    | true => rfl
    | false => simp only [hn] at h; cases h

theorem matchInv_prim {C : NodeConfig} {n n' : Node} (h : Prim C n n') (hi : MatchInv n) : MatchInv n' := by
  obtain ⟨h1, h2, h3, h4⟩ := hi
  have hp := prim_args h
  have up : ∀ {r d}, Sat n r d → Sat n' r d := fun ⟨a, ha, hm⟩ => ⟨a, prefix_get hp ha, hm⟩
  have upn : ∀ {r : Nat}, (∃ a, n.args[r]? = some a ∧ a.hasOnNack = true) → ∃ a, n'.args[r]? = some a ∧ a.hasOnNack = true := fun ⟨a, ha, hm⟩ => ⟨a, prefix_get hp ha, hm⟩
  cases prim_shape h with
  | same hs evs ht hq =>
    refine ⟨?_, ?_, ?_, ?_⟩
    · intro i r d hm
      rw [ht] at hm
      rcases List.mem_append.mp hm with hm | hm
      · exact up (h1 i r d hm)
      · exact (hq _ hm).elim
    · rw [hs]; exact fun d rest hm r hr => up (h2 d rest hm r hr)
    · intro i r d hm
      rw [ht] at hm
      rcases List.mem_append.mp hm with hm | hm
      · exact upn (h3 i r d hm)
      · exact (hq _ hm).elim
    · rw [hs]; exact fun d rest hm r hr => upn (h4 d rest hm r hr)
  | push f hs hf evs ht hq =>
    refine ⟨?_, ?_, ?_, ?_⟩
    · intro i r d hm
      rw [ht] at hm
      rcases List.mem_append.mp hm with hm | hm
      · exact up (h1 i r d hm)
      · exact (hq _ hm).elim
    · intro d rest hm r hr
      rw [hs] at hm
      rcases List.mem_cons.mp hm with rfl | hm
      · exact up (matchesEntry_sat (hf r hr).1)
      · exact up (h2 d rest hm r hr)
    · intro i r d hm
      rw [ht] at hm
      rcases List.mem_append.mp hm with hm | hm
      · exact upn (h3 i r d hm)
      · exact (hq _ hm).elim
    · intro d rest hm r hr
      rw [hs] at hm
      rcases List.mem_cons.mp hm with rfl | hm
      · obtain ⟨⟨w, hw⟩, _⟩ := hf r hr
        exact upn (nackEntry_sat hw)
      · exact upn (h4 d rest hm r hr)
  | pop f s hs hs' hd ht =>
    refine ⟨?_, ?_, ?_, ?_⟩
    · rw [ht]; exact fun i r d hm => up (h1 i r d hm)
    · rw [hs']; exact fun d rest hm r hr => up (h2 d rest (by rw [hs]; exact List.mem_cons_of_mem _ hm) r hr)
    · rw [ht]; exact fun i r d hm => upn (h3 i r d hm)
    · rw [hs']; exact fun d rest hm r hr => upn (h4 d rest (by rw [hs]; exact List.mem_cons_of_mem _ hm) r hr)
  | adv f f' s evs hs hs' ha ht =>
    have mem : ∀ g : Frame, (∀ c, g ≠ .app c) → g ∈ n'.stack → g = f' ∨ g ∈ n.stack := by
      intro g hg hm
      rcases hs' with h | h
      · rw [h] at hm
        rcases List.mem_cons.mp hm with h | h
        · exact .inl h
        · exact .inr (by rw [hs]; exact List.mem_cons_of_mem _ h)
      · rw [h] at hm
        rcases List.mem_cons.mp hm with h | hm
        · exact absurd h (hg _)
        · rcases List.mem_cons.mp hm with h | h
          · exact .inl h
          · exact .inr (by rw [hs]; exact List.mem_cons_of_mem _ h)
    have top : f ∈ n.stack := by rw [hs]; exact List.mem_cons_self ..
    have quiet : ∀ evs : List Ev, (∀ x ∈ evs, RegEv x) → ∀ x ∈ evs, Quiet x := fun _ h => quiet_reg h
    refine ⟨?_, ?_, ?_, ?_⟩
    · intro i r d hm
      rw [ht] at hm
      rcases List.mem_append.mp hm with hm | hm
      · exact up (h1 i r d hm)
      · cases ha with
        | deliver d' r' rest a ha evs he =>
          rcases List.mem_cons.mp hm with h | hm
          · cases h; exact up (h2 d _ top r (List.mem_cons_self ..))
          · exact (quiet evs he _ hm).elim
        | deliverNone => cases hm
        | nack => simp at hm
        | dispatch => simp at hm
    · intro d rest hm r hr
      rcases mem _ (by simp) hm with h | hm
      · cases ha with
        | deliver d' r' rest' a ha evs he => cases h; exact up (h2 d _ top r (List.mem_cons_of_mem _ hr))
        | deliverNone d' r' rest' ha => cases h; exact up (h2 d _ top r (List.mem_cons_of_mem _ hr))
        | nack => cases h
        | dispatch => cases h
      · exact up (h2 d rest hm r hr)
    · intro i r d hm
      rw [ht] at hm
      rcases List.mem_append.mp hm with hm | hm
      · exact upn (h3 i r d hm)
      · cases ha with
        | deliver d' r' rest a ha evs he =>
          rcases List.mem_cons.mp hm with h | hm
          · cases h
          · exact (quiet evs he _ hm).elim
        | deliverNone => cases hm
        | nack k r' rest =>
          simp only [List.mem_singleton, Ev.onNack.injEq] at hm
          obtain ⟨_, rfl, _⟩ := hm
          exact upn (h4 k _ top r (List.mem_cons_self ..))
        | dispatch => simp at hm
    · intro d rest hm r hr
      rcases mem _ (by simp) hm with h | hm
      · cases ha with
        | deliver d' r' rest' a ha evs he => cases h
        | deliverNone d' r' rest' ha => cases h
        | nack k r' rest' => cases h; exact upn (h4 _ _ top r (List.mem_cons_of_mem _ hr))
        | dispatch => cases h
      · exact upn (h4 d rest hm r hr)

theorem reachable_matchInv {C : NodeConfig} {n : Node} (h : Reachable C n) : MatchInv n :=
  reachable_induction ⟨(fun _ _ _ h => by cases h), (fun d rest h => by simp at h), (fun _ _ _ h => by cases h), (fun d rest h => by simp at h)⟩ (fun _ _ _ hp hi => matchInv_prim hp hi) h

/-- `onData` of an Interest is only called with Data that it matches. -/
theorem C29_only_matching (C : NodeConfig) (as : List Action) {id ref : Nat} {d : RxData} (h : Ev.onData id ref d ∈ (run C {} as).trace) :
    ∃ e ∈ (run C {} as).entries, e.args.id = id ∧ matchesData d e := by
  have hm := reachable_matchInv (C := C) ⟨as, rfl⟩
  have hi := reachable_inv (C := C) ⟨as, rfl⟩
  generalize run C {} as = n at h hm hi
  obtain ⟨a, ha, hd⟩ := hm.ev id ref d h
  rw [args_get] at ha
  have he := hi.ref.ev _ h
  change (n.entries[ref]?).map (·.args.id) = some id at he
  cases hx : n.entries[ref]? with
  | none => rw [hx] at ha; cases ha
  | some e =>
    rw [hx] at ha he
    simp only [Option.map_some, Option.some.injEq] at ha he
    subst ha
    exact ⟨e, List.mem_of_getElem? hx, he, hd⟩

theorem extractRev_exact {p : Nat → Except Err Bool} {l : List Nat} (h : ∀ r ∈ l, ∃ b, p r = .ok b) :
    extractRev p l = (l.filter (fun r => ¬ p r = .ok true), l.filter (fun r => p r = .ok true), false) := by
  induction l with
  | nil => rfl
  | cons x l ih =>
    obtain ⟨b, hb⟩ := h x (List.mem_cons_self ..)
    unfold extractRev
    rw [hb, ih (fun r hr => h r (List.mem_cons_of_mem _ hr))]
    cases b <;> simp [hb]

theorem filterMap_filter_get {es : List PitEntry} {p : Nat → Except Err Bool} {q : PitEntry → Prop} [DecidablePred q]
    {l : List Nat} (hp : ∀ r ∈ l, ∀ e, es[r]? = some e → ∃ b, p r = .ok b ∧ (b = true ↔ q e)) (hl : ∀ r ∈ l, r < es.length) :
    (l.filter (fun r => p r = .ok true)).filterMap (fun r => es[r]?) = (l.filterMap (fun r => es[r]?)).filter (fun e => q e) ∧
    (l.filter (fun r => ¬ p r = .ok true)).filterMap (fun r => es[r]?) = (l.filterMap (fun r => es[r]?)).filter (fun e => ¬ q e) := by
  induction l with
  | nil => exact ⟨rfl, rfl⟩
  | cons x l ih =>
    obtain ⟨i1, i2⟩ := ih (fun r hr => hp r (List.mem_cons_of_mem _ hr)) (fun r hr => hl r (List.mem_cons_of_mem _ hr))
    have hx := hl x (List.mem_cons_self ..)
    have hge := List.getElem?_eq_getElem hx
    obtain ⟨b, hb, hq⟩ := hp x (List.mem_cons_self ..) _ hge
    rw [List.filterMap_cons_some hge]
    by_cases hqe : q es[x]
    · have hbt := hq.mpr hqe
      subst hbt
      rw [List.filter_cons_of_pos (by simp [hb]), List.filter_cons_of_pos (by simp [hqe]), List.filter_cons_of_neg (by simp [hb]),
        List.filter_cons_of_neg (by simp [hqe]), List.filterMap_cons_some hge, i1, i2]
      exact ⟨rfl, rfl⟩
    · have hbf : b = false := by cases b; rfl; exact absurd (hq.mp rfl) hqe
      subst hbf
      rw [List.filter_cons_of_neg (by simp [hb]), List.filter_cons_of_neg (by simp [hqe]), List.filter_cons_of_pos (by simp [hb]),
        List.filter_cons_of_pos (by simp [hqe]), List.filterMap_cons_some hge, i1, i2]
      exact ⟨rfl, rfl⟩

theorem filterMap_markAll {es : List PitEntry} {kept taken : List Nat} (h : ∀ r ∈ kept, r ∉ taken) :
    kept.filterMap (fun r => (markAll es taken)[r]?) = kept.filterMap (fun r => es[r]?) := by
  induction kept with
  | nil => rfl
  | cons x l ih =>
    have := ih (fun r hr => h r (List.mem_cons_of_mem _ hr))
    have hx : (markAll es taken)[x]? = es[x]? := by
      rw [markAll_get]
      cases es[x]? with
      | none => rfl
      | some e => simp [h x (List.mem_cons_self ..)]
    rw [List.filterMap_cons, List.filterMap_cons, hx, this]

theorem map_id_get {es : List PitEntry} {l : List Nat} (hl : ∀ r ∈ l, r < es.length) :
    l.map (fun r => (((es.map (·.args))[r]?).map (·.id)).getD 0) = (l.filterMap (fun r => es[r]?)).map (·.args.id) := by
  induction l with
  | nil => rfl
  | cons x l ih =>
    have hge := List.getElem?_eq_getElem (hl x (List.mem_cons_self ..))
    rw [List.filterMap_cons_some hge, List.map_cons, List.map_cons, ih (fun r hr => hl r (List.mem_cons_of_mem _ hr))]
    rw [List.getElem?_map, hge]
    rfl

/-- The extraction in terms of what is pending. -/
theorem extract_exact {n : Node} (hi : RefInv n) {p : Nat → Except Err Bool} {q : PitEntry → Prop} [DecidablePred q]
    (hp : ∀ r ∈ n.pit, ∀ e, n.entries[r]? = some e → ∃ b, p r = .ok b ∧ (b = true ↔ q e)) :
    ∃ n' taken, n.extract p = (n', taken, false) ∧ n'.stack = n.stack ∧ n'.trace = n.trace ∧ n'.args = n.args ∧
      n'.entries.length = n.entries.length ∧ (∀ r ∈ taken, r < n.entries.length) ∧
      n'.pending = n.pending.filter (fun e => ¬ q e) ∧
      taken.map (fun r => (n.args[r]?.map (·.id)).getD 0) = (n.pending.filter (fun e => q e)).reverse.map (·.args.id) := by
  have hlt : ∀ r ∈ n.pit, r < n.entries.length := fun r hr => hi.bound r (by have := List.count_pos_iff.mpr hr; unfold refCount; omega)
  have hok : ∀ r ∈ n.pit.reverse, ∃ b, p r = .ok b := by
    intro r hr
    obtain ⟨b, hb, _⟩ := hp r (List.mem_reverse.mp hr) _ (List.getElem?_eq_getElem (hlt r (List.mem_reverse.mp hr)))
    exact ⟨b, hb⟩
  have hx := extractRev_exact hok
  cases he : n.extract p with
  | mk n' rest =>
    obtain ⟨taken, b⟩ := rest
    obtain ⟨h1, h2⟩ := extract_eq he
    rw [hx] at h1 h2
    simp only [Prod.mk.injEq] at h1
    obtain ⟨ht, rfl⟩ := h1
    have htk : ∀ r ∈ taken, r < n.entries.length := fun r hr => by
      rw [← ht] at hr
      exact hlt r (List.mem_reverse.mp (List.mem_filter.mp hr).1)
    refine ⟨n', taken, rfl, by rw [h2], by rw [h2], ?_, by rw [h2]; exact markAll_length _ _, htk, ?_, ?_⟩
    · unfold args; rw [h2]; exact markAll_args _ _
    · have hpit : n'.pit = n.pit.filter (fun r => decide (¬ p r = .ok true)) := by
        rw [h2]; dsimp only; rw [← List.filter_reverse, List.reverse_reverse]
      have hent : n'.entries = markAll n.entries taken := by rw [h2]
      unfold pending
      rw [hpit, hent, filterMap_markAll, (filterMap_filter_get hp hlt).2]
      intro r hr hrt
      rw [← ht] at hrt
      have a1 := (List.mem_filter.mp hr).2
      have a2 := (List.mem_filter.mp hrt).2
      simp at a1 a2
      exact a1 a2
    · unfold args
      rw [map_id_get htk, ← ht, List.filter_reverse, List.filterMap_reverse, (filterMap_filter_get hp hlt).1]
      rfl

/-- The Data is being passed to the callbacks. -/
structure Delivering (C : NodeConfig) (n n' : Node) (d : RxData) : Prop where
  /-- All others stay pending. -/
  pending : n'.pending = n.pending.filter (fun e => ¬ matchesData d e)
  /-- Nothing was called yet. -/
  trace : n'.trace = n.trace
  /-- As soon as control is back, the callbacks of those that match were called. -/
  calls : ∀ as, (n'.run C as).stack.length ≤ n.stack.length →
    ∃ new, (n'.run C as).trace = n.trace ++ new ∧
      ((n.pending.filter (fun e => matchesData d e)).reverse.map (·.args.id)).Sublist (dataCalls d new)

theorem dataCalls_eq (as : List ExpressArgs) (d : RxData) (taken : List Nat) :
    dataCalls d (todo as (.deliver d taken)) = taken.map (fun r => (as[r]?.map (·.id)).getD 0) := by
  unfold dataCalls todo
  rw [List.filterMap_map, ← List.filterMap_eq_map]
  congr 1
  funext r
  simp

theorem dataCalls_todo {as : List ExpressArgs} {d : RxData} {taken : List Nat} {new : List Ev} (h : (todo as (.deliver d taken)).Sublist new) :
    (taken.map (fun r => (as[r]?.map (·.id)).getD 0)).Sublist (dataCalls d new) := by
  rw [← dataCalls_eq]
  exact List.Sublist.filterMap _ h

theorem nackCalls_todo {as : List ExpressArgs} {d : NetworkNack} {taken : List Nat} {new : List Ev} (h : (todo as (.nack d taken)).Sublist new) :
    (taken.map (fun r => (as[r]?.map (·.id)).getD 0)).Sublist (nackCalls d new) := by
  have e : nackCalls d (todo as (.nack d taken)) = taken.map (fun r => (as[r]?.map (·.id)).getD 0) := by
    unfold nackCalls todo
    rw [List.filterMap_map, ← List.filterMap_eq_map]
    congr 1
    funext r
    simp
  rw [← e]
  exact List.Sublist.filterMap _ h

theorem satisfy_delivering {C : NodeConfig} {n : Node} (hr : Reachable C n) {d : RxData}
    (hok : ∀ e ∈ n.pending, ∃ b, e.args.interest.matchesData d.name d.full d.info = .ok b) :
    ∃ n' taken, n.extract (n.matchesEntry d) = (n', taken, false) ∧ (taken = [] ↔ ∀ e ∈ n.pending, ¬ matchesData d e) ∧
      ∀ c s, n.stack = .app c :: s → Delivering C n (n'.push (.deliver d taken)) d := by
  have hi := reachable_inv hr
  obtain ⟨n', taken, h1, h2, h3, h4, h5, h6, h7, h8⟩ := extract_exact (p := n.matchesEntry d) (q := matchesData d) hi.ref (fun r hr e he => by
    obtain ⟨b, hb⟩ := hok e (List.mem_filterMap.mpr ⟨r, hr, he⟩)
    unfold matchesEntry matchesData
    rw [he]
    refine ⟨b, hb, ?_⟩
    rw [hb]
    simp)
  refine ⟨n', taken, h1, ?_, fun c s hst => ⟨h7, h3, ?_⟩⟩
  · have : taken = [] ↔ n.pending.filter (fun e => matchesData d e) = [] := by
      rw [← List.map_eq_nil_iff (f := fun r => (n.args[r]?.map (·.id)).getD 0), h8, List.map_eq_nil_iff, List.reverse_eq_nil_iff]
    rw [this, List.filter_eq_nil_iff]
    simp
  · intro as hlen
    have hp : Prim C n (n'.push (.deliver d taken)) := .takeData n d n' taken ⟨c, s, hst⟩ h1
    have hinv := inv_prim hp hi
    obtain ⟨new, hn, hs⟩ := loop_done hinv (f := .deliver d taken) (base := n'.stack) rfl (fun r hr => by
      show r < n'.entries.length
      rw [h5]; exact h6 r hr) as (by rw [h2]; exact hlen)
    refine ⟨new, by rw [hn]; show n'.trace ++ new = _; rw [h3], ?_⟩
    rw [← h8, ← h4]
    exact dataCalls_todo hs

/-- When a Data packet arrives, the `onData` callbacks called are those of the pending Interests that match (by the
time the library returns, whatever the callbacks do), and all other Interests stay pending.  By C28 each
is called once, and by `C29_only_matching` no other is called with this packet. -/
theorem C29_receive_partial {C : NodeConfig} {n : Node} (hr : Reachable C n) (ha : n.appRuns) {element : Bytes} {d : RxData}
    (hd : decodeElement C element = .ok (.data d, none))
    (hok : ∀ e ∈ n.pending, ∃ b, e.args.interest.matchesData d.name d.full d.info = .ok b) :
    Delivering C n (n.step C (.receive element)) d := by
  obtain ⟨c, s, hst⟩ := ha
  obtain ⟨n', taken, h1, _, h2⟩ := satisfy_delivering hr hok
  have : n.step C (.receive element) = n'.push (.deliver d taken) := by
    unfold step
    rw [hst]
    dsimp only
    unfold onReceivedElement
    rw [hd]
    simp only [satisfy, h1, finish]
    rfl
  rw [this]
  exact h2 c s hst

/-- The same for `putData` with interest loopback on, if some pending Interest matches. -/
theorem C29_loopback_partial {C : NodeConfig} {n : Node} (hr : Reachable C n) (ha : n.appRuns) {d : RxData} {wire : Except Err Bytes} {sendOk : Bool}
    (hl : n.loopback = true) (hm : ∃ e ∈ n.pending, matchesData d e)
    (hok : ∀ e ∈ n.pending, ∃ b, e.args.interest.matchesData d.name d.full d.info = .ok b) :
    Delivering C n (n.step C (.putData d wire sendOk)) d := by
  obtain ⟨c, s, hst⟩ := ha
  obtain ⟨n', taken, h1, h0, h2⟩ := satisfy_delivering hr hok
  have : n.step C (.putData d wire sendOk) = n'.push (.deliver d taken) := by
    unfold step
    rw [hst]
    dsimp only
    have hne : taken ≠ [] := fun h => by
      obtain ⟨e, he, hme⟩ := hm
      exact h0.mp h e he hme
    have he : taken.isEmpty = false := by cases taken; exact absurd rfl hne; rfl
    unfold putData
    simp only [hl, if_true, satisfy, h1, he, finish]
    rfl
  rw [this]
  exact h2 c s hst

/-- If the callbacks only return, the calls are exactly those. -/
theorem deliver_quiet (C : NodeConfig) (d : RxData) (taken : List Nat) : ∀ (n : Node) (base : List Frame), n.stack = .deliver d taken :: base → (∃ g s, base = g :: s) →
    (∀ r ∈ taken, ∃ a, n.args[r]? = some a ∧ a.handler = .app) →
    n.run C ((List.replicate taken.length [Action.lib true, .ret]).flatten ++ [.lib true]) =
      { n with stack := base, trace := n.trace ++ taken.map (fun r => .onData ((n.args[r]?.map (·.id)).getD 0) r d) } := by
  induction taken with
  | nil =>
    intro n base h _ _
    simp only [List.length_nil, List.replicate_zero, List.flatten_nil, List.nil_append, run, step, h, lib]
    simp
  | cons r rest ih =>
    intro n base h hb hall
    obtain ⟨a, ha, hh⟩ := hall r (List.mem_cons_self ..)
    have he : ∃ e, n.entries[r]? = some e ∧ e.args = a := by
      rw [args_get] at ha
      cases hx : n.entries[r]? with
      | none => rw [hx] at ha; cases ha
      | some e => rw [hx] at ha; exact ⟨e, rfl, by simpa using ha⟩
    obtain ⟨e, he, rfl⟩ := he
    have h1 : (n.step C (.lib true)).step C .ret = { n with stack := .deliver d rest :: base, trace := n.trace ++ [.onData e.args.id r d] } := by
      have : n.step C (.lib true) = { n with stack := .app .guarded :: .deliver d rest :: base, trace := n.trace ++ [.onData e.args.id r d] } := by
        unfold step
        rw [h]
        dsimp only
        unfold lib
        rw [h]
        dsimp only
        unfold callOnData
        simp only [he, hh]
        rfl
      rw [this]
      rfl
    simp only [List.length_cons, List.replicate_succ, List.flatten_cons, List.cons_append, List.nil_append, run]
    rw [h1, ih _ base rfl hb]
    · have ea : n.args[r]? = some e.args := ha
      simp only [List.map_cons, ea, Option.map_some, Option.getD_some, List.append_assoc, List.singleton_append]
      rfl
    · exact fun x hx => hall x (List.mem_cons_of_mem _ hx)

/-- When a Data packet arrives and the callbacks only return (and do not call the library), the `onData` callbacks
called are exactly those of the pending Interests that match, each once. -/
theorem C29_exactly {C : NodeConfig} {n : Node} (hr : Reachable C n) (ha : n.appRuns) {element : Bytes} {d : RxData}
    (hd : decodeElement C element = .ok (.data d, none))
    (hok : ∀ e ∈ n.pending, (∃ b, e.args.interest.matchesData d.name d.full d.info = .ok b) ∧ e.args.handler = .app) :
    ∃ k new, n.run C (.receive element :: (List.replicate k [Action.lib true, .ret]).flatten ++ [.lib true]) =
        { (n.step C (.receive element)) with stack := n.stack, trace := n.trace ++ new } ∧
      dataCalls d new = (n.pending.filter (fun e => matchesData d e)).reverse.map (·.args.id) ∧ new.length = (dataCalls d new).length := by
  obtain ⟨c, s, hst⟩ := ha
  have hi := reachable_inv hr
  obtain ⟨n', taken, h1, h2, h3, h4, h5, h6, h7, h8⟩ := extract_exact (p := n.matchesEntry d) (q := matchesData d) hi.ref (fun r hr e he => by
    obtain ⟨⟨b, hb⟩, _⟩ := hok e (List.mem_filterMap.mpr ⟨r, hr, he⟩)
    unfold matchesEntry matchesData
    rw [he]
    refine ⟨b, hb, ?_⟩
    rw [hb]
    simp)
  have hstep : n.step C (.receive element) = n'.push (.deliver d taken) := by
    unfold step
    rw [hst]
    dsimp only
    unfold onReceivedElement
    rw [hd]
    simp only [satisfy, h1, finish]
    rfl
  have hq := deliver_quiet C d taken (n'.push (.deliver d taken)) n'.stack rfl ⟨_, _, h2.trans hst⟩ (fun r hr => by
    have hp := (extract_taken h1 r hr).2
    have hlt := h6 r hr
    have hge := List.getElem?_eq_getElem hlt
    refine ⟨n.entries[r].args, ?_, (hok _ (List.mem_filterMap.mpr ⟨r, hp, hge⟩)).2⟩
    show n'.args[r]? = _
    rw [h4, args_get, hge]; rfl)
  refine ⟨taken.length, taken.map (fun r => .onData ((n'.args[r]?.map (·.id)).getD 0) r d), ?_, ?_, ?_⟩
  · rw [List.cons_append, run, hstep, hq, ← h2, ← h3]
    rfl
  · rw [← h8, ← h4]
    exact dataCalls_eq n'.args d taken
  · have := congrArg List.length (dataCalls_eq n'.args d taken)
    rw [List.length_map] at this ⊢
    exact this.symm

/-! ## C45 -/

/-- `onNetworkNack` is only called for an Interest that was expressed with one. -/
theorem C45_only_with_callback (C : NodeConfig) (as : List Action) {id ref : Nat} {k : NetworkNack} (h : Ev.onNack id ref k ∈ (run C {} as).trace) :
    ∃ e ∈ (run C {} as).entries, e.args.id = id ∧ e.args.hasOnNack = true := by
  have hm := reachable_matchInv (C := C) ⟨as, rfl⟩
  have hi := reachable_inv (C := C) ⟨as, rfl⟩
  generalize run C {} as = n at h hm hi
  obtain ⟨a, ha, hd⟩ := hm.nackEv id ref k h
  rw [args_get] at ha
  have he := hi.ref.ev _ h
  change (n.entries[ref]?).map (·.args.id) = some id at he
  cases hx : n.entries[ref]? with
  | none => rw [hx] at ha; cases ha
  | some e =>
    rw [hx] at ha he
    simp only [Option.map_some, Option.some.injEq] at ha he
    subst ha
    exact ⟨e, List.mem_of_getElem? hx, he, hd⟩

/-- When a Nack arrives, the `onNetworkNack` callbacks called are those of the pending Interests that have one and whose
encoding is that of the Interest in the Nack, and all other Interests stay pending. -/
theorem C45_nack {C : NodeConfig} {n : Node} (hr : Reachable C n) (ha : n.appRuns) {element : Bytes} {i : Interest} {wire : Bytes} {k : NetworkNack}
    (hd : decodeElement C element = .ok (.interest i wire, some k))
    (hok : ∀ e ∈ n.pending, e.args.hasOnNack = true → ∃ w, e.args.wire = .ok w) :
    let n' := n.step C (.receive element)
    n'.pending = n.pending.filter (fun e => ¬ matchesNack wire e) ∧ n'.trace = n.trace ∧
    ∀ as, (n'.run C as).stack.length ≤ n.stack.length → ∃ new, (n'.run C as).trace = n.trace ++ new ∧
      ((n.pending.filter (fun e => matchesNack wire e)).reverse.map (·.args.id)).Sublist (nackCalls k new) := by
  obtain ⟨c, s, hst⟩ := ha
  have hi := reachable_inv hr
  obtain ⟨n', taken, h1, h2, h3, h4, h5, h6, h7, h8⟩ := extract_exact (p := n.nackEntry wire) (q := matchesNack wire) hi.ref (fun r hr e he => by
    have hm := hok e (List.mem_filterMap.mpr ⟨r, hr, he⟩)
    unfold nackEntry matchesNack
    rw [he]
    dsimp only
    cases hn : e.args.hasOnNack with
    | false => exact ⟨false, rfl, by simp⟩
    | true =>
      obtain ⟨w, hw⟩ := hm hn
      rw [hw]
      refine ⟨w == wire, rfl, ?_⟩
      simp)
  have hstep : n.step C (.receive element) = n'.push (.nack k taken) := by
    unfold step
    rw [hst]
    dsimp only
    unfold onReceivedElement
    rw [hd]
    simp only [h1, finish]
    rfl
  rw [hstep]
  refine ⟨h7, h3, ?_⟩
  intro as hlen
  have hp : Prim C n (n'.push (.nack k taken)) := .takeNack n k wire n' taken ⟨c, s, hst⟩ h1
  obtain ⟨new, hn, hs⟩ := loop_done (inv_prim hp hi) (f := .nack k taken) (base := n'.stack) rfl (fun r hr => by
    show r < n'.entries.length
    rw [h5]; exact h6 r hr) as (by rw [h2]; exact hlen)
  refine ⟨new, by rw [hn]; show n'.trace ++ new = _; rw [h3], ?_⟩
  rw [← h8, ← h4]
  exact nackCalls_todo hs

end Node
end PyNDN
