import Verif.Lemmas.Node
import Verif.Spec.Node
/-
Invariants of the reachable states of a Node: each entry object is used once, ids are unique.
-/
namespace PyNDN
namespace Node

/-! ### Closed forms of the remaining functions -/

theorem callLater_form (C : NodeConfig) (n : Node) (d : Int) (c : Delayed) :
    ∃ dl lt, n.callLater C d c = { n with seq := n.seq + 1, delayed := dl, loopTimers := lt, trace := n.trace ++ [.scheduled n.seq (n.now + d)] } ∧
      ((C.threadsafe = true ∧ dl = n.delayed ∧ lt = n.loopTimers ++ [⟨n.now + d, n.seq, c⟩]) ∨
       (C.threadsafe = false ∧ dl = (insertDelayedRev ⟨n.now + d, n.seq, c⟩ n.delayed.reverse).reverse ∧ lt = n.loopTimers)) := by
  unfold callLater
  dsimp only
  split
  · next h => exact ⟨_, _, rfl, .inl ⟨h, rfl, rfl⟩⟩
  · next h => exact ⟨_, _, rfl, .inr ⟨by simpa using h, rfl, rfl⟩⟩

/-- What `helperCore` can do. -/
theorem helperCore_form (C : NodeConfig) (n : Node) (a : ExpressArgs) (o : Outcome) :
    (o = .removed ∧ n.helperCore C a o = { n with tokens := (n.consume a).tokens, removeRequests := n.removeRequests.erase a.id, trace := n.trace ++ [.helper a.id o] }) ∨
    (o ≠ .removed ∧ ∃ sq dl lt evs, n.helperCore C a o = { n with tokens := (n.consume a).tokens, entries := n.entries ++ [⟨a, false, n.now⟩], pit := n.pit ++ [n.entries.length], seq := sq, delayed := dl, loopTimers := lt, trace := n.trace ++ evs ++ [.helper a.id o] } ∧
      (evs = [] ∨ ∃ k t, evs = [.scheduled k t])) := by
  unfold helperCore
  split
  · next h => exact .inl ⟨h, rfl⟩
  · next h =>
    refine .inr ⟨h, ?_⟩
    unfold addEntry
    dsimp only
    split
    · obtain ⟨dl, lt, e, _⟩ := callLater_form C { (n.consume a) with entries := n.entries ++ [(⟨a, false, n.now⟩ : PitEntry)], pit := n.pit ++ [n.entries.length] } (((a.interest.lifetime.getD 4000 : Nat) : Int)) (.timeout n.entries.length)
      exact ⟨n.seq + 1, dl, lt, _, congrArg (fun m => m.emit (.helper a.id o)) e, .inr ⟨_, _, rfl⟩⟩
    · exact ⟨n.seq, n.delayed, n.loopTimers, [], by rw [List.append_nil]; rfl, .inl rfl⟩

/-- What running a delayed call can do. -/
theorem runDelayed_form (n : Node) (e : DelayedEntry) (now : Int) :
    (e.call = .app ∧ n.runDelayed e now = { n with trace := n.trace ++ [.ran e.seq now], stack := .app .unguarded :: n.stack }) ∨
    (∃ r, e.call = .timeout r ∧ ((∀ x, n.entries[r]? = some x → x.removed = true ∨ r ∉ n.pit) ∧
        n.runDelayed e now = { n with trace := n.trace ++ [.ran e.seq now] })) ∨
    (∃ r x, e.call = .timeout r ∧ n.entries[r]? = some x ∧ x.removed = false ∧ r ∈ n.pit ∧
      ((x.args.hasOnTimeout = false ∧ n.runDelayed e now = { n with entries := markAll n.entries [r], pit := n.pit.erase r, trace := n.trace ++ [.ran e.seq now] }) ∨
       (x.args.hasOnTimeout = true ∧ ∃ evs, (∀ y ∈ evs, RegEv y) ∧ n.runDelayed e now = { n with entries := markAll n.entries [r], pit := n.pit.erase r, trace := n.trace ++ [.ran e.seq now] ++ [.onTimeout x.args.id r] ++ evs, stack := .app .guarded :: n.stack }))) := by
  unfold runDelayed
  dsimp only
  split
  · next r hc =>
    have pe : (n.emit (.ran e.seq now)).entries = n.entries := rfl
    have pp : (n.emit (.ran e.seq now)).pit = n.pit := rfl
    unfold processTimeout
    rw [pe, pp]
    split
    · next h => exact .inr (.inl ⟨r, hc, (fun x hx => absurd (h.symm.trans hx) (by simp)), rfl⟩)
    · next x hx =>
      split
      · next hr => exact .inr (.inl ⟨r, hc, (fun y hy => by rw [hx] at hy; cases hy; exact .inl hr), rfl⟩)
      · next hr =>
        split
        · next hp => exact .inr (.inl ⟨r, hc, (fun y hy => .inr hp), rfl⟩)
        · next hp =>
          refine .inr (.inr ⟨r, x, hc, hx, by simpa using hr, Decidable.not_not.mp hp, ?_⟩)
          dsimp only
          split
          · next ht =>
            refine .inr ⟨ht, ?_⟩
            split
            · exact ⟨[], by simp, by rw [List.append_nil]; rfl⟩
            · exact ⟨[.registerFailed _], fun y hy => by rw [List.mem_singleton.mp hy]; exact .inr (.inl ⟨_, rfl⟩), rfl⟩
          · next ht => exact .inl ⟨by simpa using ht, rfl⟩
  · next hc => exact .inl ⟨hc, rfl⟩

/-! ### Entry objects and marking -/

theorem markAll_length (es : List PitEntry) (l : List Nat) : (markAll es l).length = es.length := by
  unfold markAll
  induction l generalizing es with
  | nil => rfl
  | cons r l ih => rw [List.foldl_cons, ih, List.length_modify]

theorem markAll_get (es : List PitEntry) (l : List Nat) (r : Nat) :
    (markAll es l)[r]? = (es[r]?).map (fun e => if r ∈ l then { e with removed := true } else e) := by
  unfold markAll
  induction l generalizing es with
  | nil => simp
  | cons x l ih =>
    rw [List.foldl_cons, ih, List.getElem?_modify]
    cases es[r]? with
    | none => simp
    | some e =>
      simp only [Option.map_some]
      by_cases h : x = r
      · subst h; simp
      · have : ¬ r = x := fun h' => h h'.symm
        simp [h, this]

theorem markAll_args (es : List PitEntry) (l : List Nat) : (markAll es l).map (·.args) = es.map (·.args) := by
  apply List.ext_getElem?
  intro i
  rw [List.getElem?_map, List.getElem?_map, markAll_get]
  cases es[i]? with
  | none => rfl
  | some e => simp only [Option.map_some]; split <;> rfl

/-! ### References -/

/-- The entry objects waiting in loops. -/
def frameRefs : List Frame → List Nat
  | [] => []
  | .deliver _ rest :: s => rest ++ frameRefs s
  | .nack _ rest :: s => rest ++ frameRefs s
  | _ :: s => frameRefs s

/-- The entry objects whose callback was called. -/
def cbRefs : List Ev → List Nat
  | [] => []
  | .onData _ r _ :: t => r :: cbRefs t
  | .onTimeout _ r :: t => r :: cbRefs t
  | .onNack _ r _ :: t => r :: cbRefs t
  | _ :: t => cbRefs t

theorem cbRefs_append (a b : List Ev) : cbRefs (a ++ b) = cbRefs a ++ cbRefs b := by
  induction a with
  | nil => rfl
  | cons e a ih => cases e <;> simp [cbRefs, ih]

theorem cbRefs_reg {evs : List Ev} (h : ∀ x ∈ evs, RegEv x) : cbRefs evs = [] := by
  induction evs with
  | nil => rfl
  | cons e t ih =>
    have ht := ih (fun x hx => h x (List.mem_cons_of_mem _ hx))
    rcases h e (List.mem_cons_self ..) with ⟨r, rfl⟩ | ⟨r, rfl⟩ | ⟨f, rfl⟩ <;> simpa [cbRefs] using ht

def refCount (n : Node) (r : Nat) : Nat := n.pit.count r + (frameRefs n.stack).count r + (cbRefs n.trace).count r

/-- The ids that belong to a call. -/
def argIds (a : ExpressArgs) : List Nat :=
  match a.handler with
  | .app => [a.id]
  | .register r _ _ _ => [a.id, r]

def waiting (n : Node) : List ExpressArgs := n.queue.drop n.next

def idCount (n : Node) (i : Nat) : Nat :=
  n.tokens.count i + (n.waiting.flatMap argIds).count i + ((n.entries.map (·.args)).flatMap argIds).count i + (n.filters.map (·.id)).count i

theorem extractRev_count (p : Nat → Except Err Bool) (l : List Nat) (r : Nat) :
    (extractRev p l).1.count r + (extractRev p l).2.1.count r = l.count r := by
  induction l with
  | nil => rfl
  | cons x l ih =>
    unfold extractRev
    split
    · simp
    · generalize extractRev p l = x at ih
      obtain ⟨k, t, b⟩ := x
      dsimp only at ih ⊢
      split
      · simp only [List.count_cons]; omega
      · simp only [List.count_cons]; omega

theorem extract_count {n n' : Node} {p : Nat → Except Err Bool} {taken : List Nat} {b : Bool} (h : n.extract p = (n', taken, b)) (r : Nat) :
    n'.pit.count r + taken.count r = n.pit.count r := by
  obtain ⟨h1, h2⟩ := extract_eq h
  have := extractRev_count p n.pit.reverse r
  rw [h1, List.count_reverse] at this
  rw [h2, List.count_reverse]
  exact this

/-- An event reports a callback of the entry object it names. -/
def EvOk (n : Node) (e : Ev) : Prop :=
  match e with
  | .onData id r _ => (n.entries[r]?).map (·.args.id) = some id
  | .onTimeout id r => (n.entries[r]?).map (·.args.id) = some id
  | .onNack id r _ => (n.entries[r]?).map (·.args.id) = some id
  | _ => True

structure RefInv (n : Node) : Prop where
  once : ∀ r, refCount n r ≤ 1
  bound : ∀ r, refCount n r ≠ 0 → r < n.entries.length
  live : ∀ r ∈ n.pit, ∀ e, n.entries[r]? = some e → e.removed = false
  ev : ∀ e ∈ n.trace, EvOk n e

/-- `EvOk` depends only on the arguments of entry objects, which stay. -/
theorem evOk_mono {n n' : Node} (h : ∀ (r a : Nat), (n.entries[r]?).map (·.args.id) = some a → (n'.entries[r]?).map (·.args.id) = some a) {e : Ev} (he : EvOk n e) :
    EvOk n' e := by
  cases e <;> first | exact h _ _ he | trivial

theorem args_markAll (es : List PitEntry) (l : List Nat) (r a : Nat) (h : (es[r]?).map (·.args.id) = some a) :
    ((markAll es l)[r]?).map (·.args.id) = some a := by
  rw [markAll_get]
  cases he : es[r]? with
  | none => rw [he] at h; cases h
  | some e =>
    rw [he] at h
    simp only [Option.map_some, Option.some.injEq] at h ⊢
    split <;> exact h

theorem idOf_spec {n : Node} {r : Nat} (h : r < n.entries.length) : (n.entries[r]?).map (·.args.id) = some (n.idOf r) := by
  unfold idOf
  rw [List.getElem?_eq_getElem h]
  rfl

/-- Frames without references. -/
def plain : Frame → Bool
  | .deliver _ _ => false
  | .nack _ _ => false
  | _ => true

theorem frameRefs_plain {f : Frame} (h : plain f = true) (s : List Frame) : frameRefs (f :: s) = frameRefs s := by
  cases f <;> first | rfl | cases h

theorem frameRefs_done {f : Frame} (h : Frame.done f = true) (s : List Frame) : frameRefs (f :: s) = frameRefs s := by
  cases f with
  | deliver d l => cases l with
    | nil => rfl
    | cons a l => cases h
  | nack d l => cases l with
    | nil => rfl
    | cons a l => cases h
  | _ => rfl

/-- The invariant when entries and pit do not change. -/
theorem refInv_same {n n' : Node} (hi : RefInv n) (he : n'.entries = n.entries) (hp : n'.pit = n.pit)
    (hc : ∀ r, refCount n' r ≤ refCount n r) (hev : ∀ e ∈ n'.trace, e ∈ n.trace ∨ EvOk n e) : RefInv n' := by
  refine ⟨fun r => Nat.le_trans (hc r) (hi.once r), fun r h => ?_, ?_, ?_⟩
  · rw [he]; exact hi.bound r (by have := hc r; omega)
  · rw [he, hp]; exact hi.live
  · intro e h
    refine evOk_mono (n := n) (fun r a h => by rw [he]; exact h) ?_
    rcases hev e h with h | h
    · exact hi.ev e h
    · exact h

theorem markAll_live {n : Node} {pit' taken : List Nat} (hi : RefInv n) (hc : ∀ r, pit'.count r + taken.count r ≤ n.pit.count r) :
    ∀ r ∈ pit', ∀ e, (markAll n.entries taken)[r]? = some e → e.removed = false := by
  intro r hr e he
  have hcr := hc r
  have h1 := List.count_pos_iff.mpr hr
  have h2 : r ∈ n.pit := List.count_pos_iff.mp (by omega)
  have h3 := hi.once r
  unfold refCount at h3
  have h4 : r ∉ taken := fun h => by have := List.count_pos_iff.mpr h; omega
  rw [markAll_get] at he
  cases hx : n.entries[r]? with
  | none => rw [hx] at he; cases he
  | some x =>
    rw [hx] at he
    simp only [Option.map_some, h4, if_false, Option.some.injEq] at he
    rw [← he]
    exact hi.live r h2 x hx

/-- The invariant when entry objects leave the table. -/
theorem refInv_take {n n' : Node} {taken : List Nat} (hi : RefInv n) (he : n'.entries = markAll n.entries taken)
    (hp : ∀ r, n'.pit.count r + taken.count r ≤ n.pit.count r)
    (hc : ∀ r, refCount n' r ≤ refCount n r) (hev : ∀ e ∈ n'.trace, e ∈ n.trace ∨ EvOk n e) : RefInv n' := by
  refine ⟨fun r => Nat.le_trans (hc r) (hi.once r), fun r h => ?_, ?_, ?_⟩
  · rw [he, markAll_length]; exact hi.bound r (by have := hc r; omega)
  · rw [he]; exact markAll_live hi hp
  · intro e h
    refine evOk_mono (n := n) (fun r a h => by rw [he]; exact args_markAll _ _ _ _ h) ?_
    rcases hev e h with h | h
    · exact hi.ev e h
    · exact h

theorem refInv_add {n n' : Node} {x : PitEntry} (hi : RefInv n) (he : n'.entries = n.entries ++ [x]) (hx : x.removed = false) (hp : n'.pit = n.pit ++ [n.entries.length])
    (hc : ∀ r, refCount n' r ≤ refCount n r + [n.entries.length].count r) (hev : ∀ e ∈ n'.trace, e ∈ n.trace ∨ EvOk n e) : RefInv n' := by
  have fresh : refCount n n.entries.length = 0 := by
    refine Decidable.byContradiction fun h => ?_
    exact Nat.lt_irrefl _ (hi.bound _ h)
  refine ⟨fun r => ?_, fun r h => ?_, ?_, ?_⟩
  · have h1 := hc r
    have h2 := hi.once r
    rw [List.count_singleton] at h1
    split at h1
    · next h => rw [beq_iff_eq] at h; subst h; omega
    · omega
  · rw [he, List.length_append, List.length_singleton]
    have h1 := hc r
    rw [List.count_singleton] at h1
    split at h1
    · next h' => rw [beq_iff_eq] at h'; omega
    · have := hi.bound r (by omega); omega
  · rw [he, hp]
    intro r hr e hget
    rcases List.mem_append.mp hr with hr | hr
    · have hb := hi.bound r (by have := List.count_pos_iff.mpr hr; unfold refCount; omega)
      rw [List.getElem?_append_left hb] at hget
      exact hi.live r hr e hget
    · rw [List.mem_singleton.mp hr, List.getElem?_append_right (Nat.le_refl _)] at hget
      simp at hget
      rw [← hget]; exact hx
  · intro e h
    refine evOk_mono (n := n) (fun r a h => ?_) ?_
    · rw [he]
      have hb : r < n.entries.length := by
        refine Decidable.byContradiction fun h' => ?_
        rw [List.getElem?_eq_none (Nat.not_lt.mp h')] at h
        cases h
      rw [List.getElem?_append_left hb]
      exact h
    · rcases hev e h with h | h
      · exact hi.ev e h
      · exact h

theorem refCount_eq (n n' : Node) (hp : n'.pit = n.pit) (hs : frameRefs n'.stack = frameRefs n.stack)
    (ht : cbRefs n'.trace = cbRefs n.trace) (r : Nat) : refCount n' r = refCount n r := by
  unfold refCount; rw [hp, hs, ht]

theorem regEv_evOk {n : Node} {e : Ev} (h : RegEv e) : EvOk n e := by
  rcases h with ⟨r, rfl⟩ | ⟨r, rfl⟩ | ⟨f, rfl⟩ <;> trivial

theorem refInv_prim {C : NodeConfig} {n n' : Node} (h : Prim C n n') (hi : RefInv n) : RefInv n' := by
  have same : ∀ m : Node, m.entries = n.entries → m.pit = n.pit → frameRefs m.stack = frameRefs n.stack → cbRefs m.trace = cbRefs n.trace →
      (∀ e ∈ m.trace, e ∈ n.trace ∨ EvOk n e) → RefInv m := by
    intro m he hp hs ht hev
    exact refInv_same hi he hp (fun r => Nat.le_of_eq (refCount_eq n m hp hs ht r)) hev
  have keep : ∀ e ∈ n.trace, e ∈ n.trace ∨ EvOk n e := fun e h => .inl h
  have helper : ∀ (m : Node) (a : ExpressArgs) (o : Outcome), m.entries = n.entries → m.pit = n.pit → m.stack = n.stack →
      cbRefs m.trace = cbRefs n.trace → (∀ e ∈ m.trace, e ∈ n.trace ∨ EvOk n e) → RefInv (m.helperCore C a o) := by
    intro m a o h1 h2 h3 h4 h5
    rcases helperCore_form C m a o with ⟨_, e⟩ | ⟨_, sq, dl, lt, evs, e, hevs⟩
    · rw [e]
      refine same _ h1 h2 (by rw [← h3]) ?_ ?_
      · rw [cbRefs_append, h4]; simp [cbRefs]
      · intro x hx
        rcases List.mem_append.mp hx with hx | hx
        · exact h5 x hx
        · rw [List.mem_singleton.mp hx]; exact .inr trivial
    · rw [e]
      refine refInv_add (x := ⟨a, false, m.now⟩) hi (by rw [← h1]) rfl (by rw [← h1, ← h2]) ?_ ?_
      · intro r
        have ec : cbRefs (m.trace ++ evs ++ [.helper a.id o]) = cbRefs n.trace := by
          rw [cbRefs_append, cbRefs_append, h4]
          rcases hevs with rfl | ⟨k, t, rfl⟩ <;> simp [cbRefs]
        unfold refCount
        simp only [ec, h1, h2, h3, List.count_append]
        omega
      · intro x hx
        rcases List.mem_append.mp hx with hx | hx
        · rcases List.mem_append.mp hx with hx | hx
          · exact h5 x hx
          · rcases hevs with rfl | ⟨k, t, rfl⟩
            · simp at hx
            · rw [List.mem_singleton.mp hx]; exact .inr trivial
        · rw [List.mem_singleton.mp hx]; exact .inr trivial
  have snoc : ∀ x : Ev, EvOk n x → ∀ e ∈ n.trace ++ [x], e ∈ n.trace ∨ EvOk n e := by
    intro x hx e he
    rcases List.mem_append.mp he with he | he
    · exact .inl he
    · rw [List.mem_singleton.mp he]; exact .inr hx
  have run : ∀ (m : Node) (e : DelayedEntry) (now : Int), m.entries = n.entries → m.pit = n.pit → m.stack = n.stack → m.trace = n.trace →
      RefInv (m.runDelayed e now) := by
    intro m e now h1 h2 h3 h4
    rcases runDelayed_form m e now with ⟨_, e'⟩ | ⟨r, _, _, e'⟩ | ⟨r, x, _, hx, hr, hp, hh⟩
    · rw [e', h4, h3]
      exact same _ h1 h2 (frameRefs_plain rfl _) (by simp [cbRefs_append, cbRefs]) (snoc (.ran e.seq now) trivial)
    · rw [e', h4]
      exact same _ h1 h2 (by rw [← h3]) (by simp [cbRefs_append, cbRefs]) (snoc (.ran e.seq now) trivial)
    · rw [h2] at hp
      have hpos := List.count_pos_iff.mpr hp
      have hcount : ∀ r', (n.pit.erase r).count r' + [r].count r' ≤ n.pit.count r' := by
        intro r'
        rw [List.count_erase, List.count_singleton]
        by_cases hrr : r' = r
        · subst hrr; simp; omega
        · have : (r == r') = false := by simp; exact fun h => hrr h.symm
          simp [this]
      rcases hh with ⟨_, e'⟩ | ⟨_, evs, hevs, e'⟩
      · rw [e', h4]
        refine refInv_take (taken := [r]) hi (by rw [← h1]) (by rw [h2]; exact hcount) ?_ (snoc (.ran e.seq now) trivial)
        intro r'
        have ec : cbRefs (n.trace ++ [.ran e.seq now]) = cbRefs n.trace := by simp [cbRefs_append, cbRefs]
        have := hcount r'
        unfold refCount
        simp only [ec, h2, h3]
        omega
      · rw [e', h4, h3]
        refine refInv_take (taken := [r]) hi (by rw [← h1]) (by rw [h2]; exact hcount) ?_ ?_
        · intro r'
          have ec : cbRefs (n.trace ++ [.ran e.seq now] ++ [.onTimeout x.args.id r] ++ evs) = cbRefs n.trace ++ [r] := by
            simp [cbRefs_append, cbRefs, cbRefs_reg hevs]
          have := hcount r'
          unfold refCount
          simp only [ec, h2, frameRefs_plain (f := .app .guarded) rfl, List.count_append]
          omega
        · intro y hy
          rcases List.mem_append.mp hy with hy | hy
          · rcases List.mem_append.mp hy with hy | hy
            · exact snoc (.ran e.seq now) trivial y hy
            · rw [List.mem_singleton.mp hy]
              refine .inr ?_
              show (n.entries[r]?).map (·.args.id) = some x.args.id
              rw [← h1, hx]; rfl
          · exact .inr (regEv_evOk (hevs y hy))
  cases h with
  | misc => exact same _ rfl rfl rfl rfl keep
  | push f ho hf =>
    refine same _ rfl rfl (frameRefs_plain ?_ _) rfl keep
    rcases hf with ⟨c, rfl⟩ | ⟨t, rfl⟩ | ⟨rfl, _⟩ | ⟨rfl, _⟩ <;> rfl
  | drop f s h hd hm => exact same _ rfl rfl (by rw [h, frameRefs_done hd]) rfl keep
  | setComplete s h => exact same _ rfl rfl (by rw [h]; rfl) rfl keep
  | callData d r rest s h =>
    have hc : ∀ r', (frameRefs n.stack).count r' = [r].count r' + (frameRefs (.deliver d rest :: s)).count r' := by
      intro r'; rw [h]; simp [frameRefs, List.count_cons]; omega
    rcases callOnData_form { n with stack := .deliver d rest :: s } r d with ⟨_, e⟩ | ⟨x, hx, k, fs, ps, rr, evs, st, e, hevs, hst, _⟩
    · rw [e]
      refine refInv_same hi rfl rfl ?_ keep
      intro r'
      have := hc r'
      unfold refCount
      dsimp only
      omega
    · rw [e]
      refine refInv_same hi rfl rfl ?_ ?_
      · intro r'
        have := hc r'
        have es : frameRefs st = frameRefs (.deliver d rest :: s) := by
          rcases hst with rfl | rfl
          · rfl
          · rfl
        unfold refCount
        simp only [es, cbRefs_append, cbRefs_reg hevs, List.count_append, cbRefs]
        simp only [List.count_nil]
        omega
      · intro y hy
        rcases List.mem_append.mp hy with hy | hy
        · refine snoc _ ?_ y hy
          show (n.entries[r]?).map (·.args.id) = some x.args.id
          rw [hx]; rfl
        · exact .inr (regEv_evOk (hevs y hy))
  | callNack k r rest s h =>
    have hc : ∀ r', (frameRefs n.stack).count r' = [r].count r' + (frameRefs (.nack k rest :: s)).count r' := by
      intro r'; rw [h]; simp [frameRefs, List.count_cons]; omega
    refine refInv_same hi rfl rfl ?_ ?_
    · intro r'
      have := hc r'
      unfold refCount
      dsimp only [push, emit]
      rw [frameRefs_plain (f := .app .guarded) rfl, cbRefs_append, List.count_append]
      simp only [cbRefs]
      omega
    · refine snoc _ ?_
      refine idOf_spec (hi.bound r ?_)
      have := hc r
      unfold refCount
      simp at this
      omega
  | callFilter i f rest s h =>
    refine same _ rfl rfl ?_ ?_ (snoc _ trivial)
    · rw [h]; rfl
    · show cbRefs (n.trace ++ [_]) = _
      rw [cbRefs_append]; simp [cbRefs]
  | takeData d n' taken ha hx =>
    have hc := extract_count hx
    obtain ⟨h1, h2⟩ := extract_eq hx
    refine refInv_take (taken := taken) hi (by rw [h2]; rfl) (fun r => Nat.le_of_eq (hc r)) ?_ ?_
    · intro r
      have := hc r
      have e1 : n'.stack = n.stack := by rw [h2]
      have e2 : n'.trace = n.trace := by rw [h2]
      unfold refCount
      dsimp only [push]
      rw [e1, e2]
      simp only [frameRefs, List.count_append]
      omega
    · intro e he
      exact .inl (by rw [show (n'.push (.deliver d taken)).trace = n.trace by rw [h2]; rfl] at he; exact he)
  | takeNack k w n' taken ha hx =>
    have hc := extract_count hx
    obtain ⟨h1, h2⟩ := extract_eq hx
    refine refInv_take (taken := taken) hi (by rw [h2]; rfl) (fun r => Nat.le_of_eq (hc r)) ?_ ?_
    · intro r
      have := hc r
      have e1 : n'.stack = n.stack := by rw [h2]
      have e2 : n'.trace = n.trace := by rw [h2]
      unfold refCount
      dsimp only [push]
      rw [e1, e2]
      simp only [frameRefs, List.count_append]
      omega
    · intro e he
      exact .inl (by rw [show (n'.push (.nack k taken)).trace = n.trace by rw [h2]; rfl] at he; exact he)
  | takeLost p n' taken hx =>
    have hc := extract_count hx
    obtain ⟨h1, h2⟩ := extract_eq hx
    refine refInv_take (taken := taken) hi (by rw [h2]) (fun r => Nat.le_of_eq (hc r)) ?_ ?_
    · intro r
      have := hc r
      have e1 : n'.stack = n.stack := by rw [h2]
      have e2 : n'.trace = n.trace := by rw [h2]
      unfold refCount
      rw [e1, e2]
      omega
    · intro e he
      exact .inl (by rw [show n'.trace = n.trace by rw [h2]] at he; exact he)
  | timer now e es s h hd hle => exact run _ e now rfl rfl rfl rfl
  | fire k e ha hk hle => exact run _ e _ rfl rfl rfl rfl
  | alloc => exact same _ rfl rfl rfl rfl keep
  | exprDirect a o htk hst ho =>
    refine helper _ a o rfl rfl rfl ?_ (snoc _ trivial)
    show cbRefs (n.trace ++ [_]) = _
    rw [cbRefs_append]; simp [cbRefs]
  | exprQueue a c htk hst ha =>
    refine same _ rfl rfl rfl ?_ (snoc _ trivial)
    show cbRefs (n.trace ++ [_]) = _
    rw [cbRefs_append]; simp [cbRefs]
  | exprFail a htk ha =>
    refine same _ rfl rfl rfl ?_ (snoc _ trivial)
    show cbRefs (n.trace ++ [_]) = _
    rw [cbRefs_append]; simp [cbRefs]
  | runQueue a o s h hq ho => exact helper _ a o rfl rfl rfl rfl keep
  | queueDone s h hq => exact same _ rfl rfl (by rw [h]; rfl) rfl keep
  | removePending id =>
    rw [removePending_eq]
    have hcount : ∀ r, (n.pit.filter (fun r => decide (¬ n.idOf r = id))).count r + (n.pit.filter (fun r => decide (n.idOf r = id))).count r ≤ n.pit.count r := by
      intro r
      have a1 := List.filter_sublist (l := n.pit) (p := fun r => decide (¬ n.idOf r = id)) |>.count_le r
      have a2 := List.filter_sublist (l := n.pit) (p := fun r => decide (n.idOf r = id)) |>.count_le r
      by_cases h : n.idOf r = id
      · have : (n.pit.filter (fun r => decide (¬ n.idOf r = id))).count r = 0 := List.count_eq_zero.mpr (fun hm => by
          have := (List.mem_filter.mp hm).2; simp [h] at this)
        omega
      · have : (n.pit.filter (fun r => decide (n.idOf r = id))).count r = 0 := List.count_eq_zero.mpr (fun hm => by
          have := (List.mem_filter.mp hm).2; simp [h] at this)
        omega
    refine refInv_take (taken := n.pit.filter (fun r => decide (n.idOf r = id))) hi rfl hcount ?_ keep
    intro r
    have := hcount r
    unfold refCount
    dsimp only
    omega
  | removeRegistered id => rw [removeRegistered_eq]; exact same _ rfl rfl rfl rfl keep
  | setFilter id p r htk =>
    refine same _ rfl rfl rfl ?_ (snoc _ trivial)
    show cbRefs (n.trace ++ [_]) = _
    rw [cbRefs_append]; simp [cbRefs]
  | unset id => exact same _ rfl rfl rfl rfl keep
  | dispatch i fs hm ho => exact same _ rfl rfl rfl rfl keep
  | later d =>
    obtain ⟨dl, lt, e, _⟩ := callLater_form C n d .app
    rw [e]
    refine same _ rfl rfl rfl ?_ (snoc _ trivial)
    show cbRefs (n.trace ++ [_]) = _
    rw [cbRefs_append]; simp [cbRefs]
  | note e he =>
    have hc : cbRefs (n.trace ++ [e]) = cbRefs n.trace := by
      rw [cbRefs_append]; rcases he with ⟨w, rfl, _⟩ | ⟨i, rfl⟩ | rfl | rfl | ⟨j, rfl⟩ <;> simp [cbRefs]
    refine same _ rfl rfl rfl hc (snoc _ ?_)
    rcases he with ⟨w, rfl, _⟩ | ⟨i, rfl⟩ | rfl | rfl | ⟨j, rfl⟩ <;> trivial

theorem refInv_init : RefInv {} := ⟨fun r => by simp [refCount, frameRefs, cbRefs], fun r h => by simp [refCount, frameRefs, cbRefs] at h, fun r h => by simp at h, fun e h => by simp at h⟩

theorem reachable_refInv {C : NodeConfig} {n : Node} (h : Reachable C n) : RefInv n :=
  reachable_induction refInv_init (fun _ _ _ hp hi => refInv_prim hp hi) h

/-! ### Ids -/

structure IdInv (n : Node) : Prop where
  once : ∀ i, idCount n i ≤ 1
  bound : ∀ i, idCount n i ≠ 0 → 0 < i ∧ i ≤ n.lastId

theorem count_map_sublist {l₁ l₂ : List FilterEntry} (h : l₁.Sublist l₂) (i : Nat) :
    (l₁.map (·.id)).count i ≤ (l₂.map (·.id)).count i := (h.map _).count_le i

theorem consume_rest (n : Node) (a : ExpressArgs) : (n.consume a).queue = n.queue ∧ (n.consume a).next = n.next ∧
    (n.consume a).entries = n.entries ∧ (n.consume a).filters = n.filters := ⟨rfl, rfl, rfl, rfl⟩

theorem consume_count_le (n : Node) (a : ExpressArgs) (i : Nat) : (n.consume a).tokens.count i ≤ n.tokens.count i :=
  (consume_tokens n a).count_le i

theorem consume_count {n : Node} {a : ExpressArgs} (h : TokOk n a) (i : Nat) :
    (n.consume a).tokens.count i + (argIds a).count i ≤ n.tokens.count i := by
  obtain ⟨h1, h2⟩ := h
  have p1 := List.count_pos_iff.mpr h1
  unfold consume argIds
  cases hh : a.handler with
  | app =>
    dsimp only
    rw [List.count_erase, List.count_singleton]
    by_cases h : a.id = i
    · subst h; simp; omega
    · simp [h]
  | register r p hi hs =>
    obtain ⟨h3, h4⟩ := h2 r p hi hs hh
    have p2 := List.count_pos_iff.mpr h3
    dsimp only
    rw [List.count_erase, List.count_erase, List.count_cons, List.count_singleton]
    by_cases h : a.id = i
    · subst h
      have : ¬ r = a.id := h4
      simp [this]; omega
    · by_cases h' : r = i
      · subst h'; simp [h]; omega
      · simp [h, h']

theorem idInv_le {n n' : Node} (hi : IdInv n) (hl : n'.lastId = n.lastId) (hc : ∀ i, idCount n' i ≤ idCount n i) : IdInv n' := by
  refine ⟨fun i => Nat.le_trans (hc i) (hi.once i), fun i h => ?_⟩
  have := hi.bound i (by have := hc i; omega)
  omega

/-- A new id is given. -/
theorem idInv_new {n n' : Node} (hi : IdInv n) (hl : n'.lastId = n.lastId + 1) (hc : ∀ i, idCount n' i ≤ idCount n i + [n.lastId + 1].count i) : IdInv n' := by
  refine ⟨fun i => ?_, fun i h => ?_⟩
  · have h1 := hc i
    have h2 := hi.once i
    rw [List.count_singleton] at h1
    split at h1
    · next h =>
      have h : n.lastId + 1 = i := by simpa using h
      have : idCount n i = 0 := Decidable.byContradiction fun hne => by have := hi.bound i hne; omega
      omega
    · omega
  · have h1 := hc i
    rw [List.count_singleton] at h1
    split at h1
    · next h => have h : n.lastId + 1 = i := by simpa using h
                omega
    · have := hi.bound i (by omega); omega

theorem helperCore_ids (C : NodeConfig) (n : Node) (a : ExpressArgs) (o : Outcome) (i : Nat) :
    idCount (n.helperCore C a o) i ≤ (n.consume a).tokens.count i + (n.waiting.flatMap argIds).count i +
      ((n.entries.map (·.args)).flatMap argIds).count i + (argIds a).count i + (n.filters.map (·.id)).count i ∧
    (n.helperCore C a o).lastId = n.lastId := by
  rcases helperCore_form C n a o with ⟨_, e⟩ | ⟨_, sq, dl, lt, evs, e, hevs⟩
  · rw [e]
    refine ⟨?_, rfl⟩
    unfold idCount waiting
    dsimp only
    omega
  · rw [e]
    refine ⟨?_, rfl⟩
    unfold idCount waiting
    dsimp only
    rw [List.map_append, List.flatMap_append, List.count_append]
    simp only [List.map_cons, List.map_nil, List.flatMap_cons, List.flatMap_nil, List.append_nil]
    omega

theorem idInv_prim {C : NodeConfig} {n n' : Node} (h : Prim C n n') (hi : IdInv n) : IdInv n' := by
  have same : ∀ m : Node, m.tokens = n.tokens → m.waiting = n.waiting → m.entries.map (·.args) = n.entries.map (·.args) → m.filters.Sublist n.filters →
      m.lastId = n.lastId → IdInv m := by
    intro m h1 h2 h3 h4 h5
    refine idInv_le hi h5 (fun i => ?_)
    have := count_map_sublist h4 i
    unfold idCount
    rw [h1, h2, h3]
    omega
  have run : ∀ (m : Node) (e : DelayedEntry) (now : Int), m.tokens = n.tokens → m.waiting = n.waiting → m.entries = n.entries → m.filters = n.filters →
      m.lastId = n.lastId → IdInv (m.runDelayed e now) := by
    intro m e now h1 h2 h3 h4 h5
    rcases runDelayed_form m e now with ⟨_, e'⟩ | ⟨r, _, _, e'⟩ | ⟨r, x, _, hx, hr, hp, ⟨_, e'⟩ | ⟨_, evs, _, e'⟩⟩
    · rw [e']; exact same _ h1 h2 (by rw [← h3]) (h4 ▸ List.Sublist.refl _) h5
    · rw [e']; exact same _ h1 h2 (by rw [← h3]) (h4 ▸ List.Sublist.refl _) h5
    · rw [e']; exact same _ h1 h2 (by rw [← h3]; exact markAll_args _ _) (h4 ▸ List.Sublist.refl _) h5
    · rw [e']; exact same _ h1 h2 (by rw [← h3]; exact markAll_args _ _) (h4 ▸ List.Sublist.refl _) h5
  have refl := List.Sublist.refl n.filters
  cases h with
  | misc => exact same _ rfl rfl rfl refl rfl
  | push f ho hf => exact same _ rfl rfl rfl refl rfl
  | drop f s h hd hm => exact same _ rfl rfl rfl refl rfl
  | setComplete s h => exact same _ rfl rfl rfl refl rfl
  | callData d r rest s h =>
    rcases callOnData_form { n with stack := .deliver d rest :: s } r d with ⟨_, e⟩ | ⟨x, hx, k, fs, ps, rr, evs, st, e, hevs, hst, ⟨rfl, hf⟩ | ⟨p, rg, rfl, hf⟩⟩
    · rw [e]; exact same _ rfl rfl rfl refl rfl
    · rw [e]; exact same _ rfl rfl rfl hf rfl
    · rw [e]
      refine idInv_new hi rfl (fun i => ?_)
      have := count_map_sublist hf i
      simp only [List.map_append, List.count_append, List.map_cons, List.map_nil] at this
      unfold idCount waiting
      dsimp only
      omega
  | callNack k r rest s h => exact same _ rfl rfl rfl refl rfl
  | callFilter i f rest s h => exact same _ rfl rfl rfl refl rfl
  | takeData d n' taken ha hx =>
    rw [(extract_eq hx).2]
    exact same _ rfl rfl (markAll_args _ _) refl rfl
  | takeNack k w n' taken ha hx =>
    rw [(extract_eq hx).2]
    exact same _ rfl rfl (markAll_args _ _) refl rfl
  | takeLost p n' taken hx =>
    rw [(extract_eq hx).2]
    exact same _ rfl rfl (markAll_args _ _) refl rfl
  | timer now e es s h hd hle => exact run _ e now rfl rfl rfl rfl rfl
  | fire k e ha hk hle => exact run _ e _ rfl rfl rfl rfl rfl
  | alloc =>
    refine idInv_new hi rfl (fun i => ?_)
    unfold idCount waiting
    dsimp only
    rw [List.count_append]
    omega
  | exprDirect a o htk hst ho =>
    refine idInv_le hi (helperCore_ids C _ a o 0).2 (fun i => ?_)
    refine Nat.le_trans (helperCore_ids C _ a o i).1 ?_
    have := consume_count (n := n.emit (.called a.id)) htk i
    unfold idCount
    have e1 : (n.emit (.called a.id)).waiting = n.waiting := rfl
    have e2 : (n.emit (.called a.id)).tokens = n.tokens := rfl
    rw [e2] at this
    rw [e1]
    dsimp only [emit] at this ⊢
    omega
  | exprQueue a c htk hst ha =>
    refine idInv_le hi rfl (fun i => ?_)
    have := consume_count (n := n.emit (.called a.id)) htk i
    have hw : (((n.queue ++ [a]).drop n.next).flatMap argIds).count i ≤ (n.waiting.flatMap argIds).count i + (argIds a).count i := by
      rw [List.drop_append, List.flatMap_append, List.count_append]
      cases n.next - n.queue.length <;> simp [waiting]
    unfold idCount waiting at *
    obtain ⟨e1, e2, e3, e4⟩ := consume_rest (n.emit (.called a.id)) a
    rw [show (n.emit (.called a.id)).tokens = n.tokens from rfl] at this
    dsimp only
    rw [e2, e3, e4]
    dsimp only [emit] at *
    omega
  | exprFail a htk ha =>
    refine idInv_le hi rfl (fun i => ?_)
    have := consume_count_le (n.emit (.called a.id)) a i
    unfold idCount waiting
    dsimp only [emit] at this ⊢
    have e1 : (consume (n.emit (.called a.id)) a).queue = n.queue := rfl
    have e2 : (consume (n.emit (.called a.id)) a).next = n.next := rfl
    have e3 : (consume (n.emit (.called a.id)) a).entries = n.entries := rfl
    have e4 : (consume (n.emit (.called a.id)) a).filters = n.filters := rfl
    dsimp only [emit] at e1 e2 e3 e4
    rw [e1, e2, e3, e4]
    omega
  | runQueue a o s h hq ho =>
    refine idInv_le hi (helperCore_ids C _ a o 0).2 (fun i => ?_)
    refine Nat.le_trans (helperCore_ids C _ a o i).1 ?_
    have := consume_count_le { n with next := n.next + 1 } a i
    have hlt : n.next < n.queue.length := by
      refine Decidable.byContradiction fun h' => ?_
      rw [List.getElem?_eq_none (Nat.not_lt.mp h')] at hq
      cases hq
    have hd : n.waiting = a :: n.queue.drop (n.next + 1) := by
      unfold waiting
      rw [List.drop_eq_getElem_cons hlt]
      rw [List.getElem?_eq_getElem hlt, Option.some.injEq] at hq
      rw [hq]
    unfold idCount
    rw [hd]
    unfold waiting
    dsimp only at this ⊢
    rw [List.flatMap_cons, List.count_append]
    omega
  | queueDone s h hq =>
    refine idInv_le hi rfl (fun i => ?_)
    unfold idCount waiting
    simp
  | removePending id => rw [removePending_eq]; exact same _ rfl rfl (markAll_args _ _) refl rfl
  | removeRegistered id => rw [removeRegistered_eq]; exact same _ rfl rfl rfl List.filter_sublist rfl
  | setFilter id p r htk =>
    refine idInv_le hi rfl (fun i => ?_)
    have hp := List.count_pos_iff.mpr htk
    unfold idCount waiting
    dsimp only [emit]
    rw [List.count_erase, List.map_append, List.count_append]
    simp only [List.map_cons, List.map_nil, List.count_singleton]
    by_cases h : id = i
    · subst h; simp; omega
    · simp [h]
  | unset id => exact same _ rfl rfl rfl List.filter_sublist rfl
  | dispatch i fs hm ho => exact same _ rfl rfl rfl refl rfl
  | later d =>
    obtain ⟨dl, lt, e, _⟩ := callLater_form C n d .app
    rw [e]
    exact same _ rfl rfl rfl refl rfl
  | note e he => exact same _ rfl rfl rfl refl rfl

theorem reachable_idInv {C : NodeConfig} {n : Node} (h : Reachable C n) : IdInv n :=
  reachable_induction ⟨fun i => by simp [idCount, waiting], fun i h => by simp [idCount, waiting] at h⟩ (fun _ _ _ hp hi => idInv_prim hp hi) h

/-! ### Calls -/

theorem calledIds_append (a b : List Ev) : calledIds (a ++ b) = calledIds a ++ calledIds b := List.filterMap_append
theorem helperIds_append (a b : List Ev) : helperIds (a ++ b) = helperIds a ++ helperIds b := List.filterMap_append

theorem calledIds_reg {evs : List Ev} (h : ∀ x ∈ evs, RegEv x) : calledIds evs = [] ∧ helperIds evs = [] := by
  induction evs with
  | nil => exact ⟨rfl, rfl⟩
  | cons e t ih =>
    have ht := ih (fun x hx => h x (List.mem_cons_of_mem _ hx))
    rcases h e (List.mem_cons_self ..) with ⟨r, rfl⟩ | ⟨r, rfl⟩ | ⟨f, rfl⟩ <;> exact ht

structure CallInv (C : NodeConfig) (n : Node) : Prop where
  waiting : ∀ a ∈ n.waiting, a.id ∈ calledIds n.trace
  entries : ∀ a ∈ n.entries.map (·.args), a.id ∈ calledIds n.trace
  once : ∀ i, (calledIds n.trace).count i + n.tokens.count i ≤ 1
  bound : ∀ i ∈ calledIds n.trace, i ≤ n.lastId
  order : C.isAsync = true → calledIds n.trace = helperIds n.trace ++ n.waiting.map (·.id)
  complete : n.status = .complete → n.waiting = []
  sync : C.isAsync = false → n.queue = []
  frames : C.isAsync = true → .setComplete ∉ n.stack

theorem callInv_same {C : NodeConfig} {n n' : Node} (hi : CallInv C n) (hw : n'.waiting = n.waiting) (he : n'.entries.map (·.args) = n.entries.map (·.args))
    (hc : calledIds n'.trace = calledIds n.trace) (hh : helperIds n'.trace = helperIds n.trace) (ht : ∀ i, n'.tokens.count i ≤ n.tokens.count i)
    (hl : n.lastId ≤ n'.lastId) (hs : n'.status = n.status) (hq : n'.queue = n.queue) (hf : C.isAsync = true → .setComplete ∈ n'.stack → .setComplete ∈ n.stack) : CallInv C n' := by
  obtain ⟨h1, h2, h3, h4, h5, h6, h7, h8⟩ := hi
  refine ⟨?_, ?_, ?_, ?_, ?_, ?_, ?_, ?_⟩
  · rw [hw, hc]; exact h1
  · rw [he, hc]; exact h2
  · intro i; have := h3 i; have := ht i; rw [hc]; omega
  · intro i hi; rw [hc] at hi; exact Nat.le_trans (h4 i hi) hl
  · rw [hc, hh, hw]; exact h5
  · rw [hs, hw]; exact h6
  · rw [hq]; exact h7
  · exact fun ha hm => h8 ha (hf ha hm)

theorem helper_waiting {n n' : Node} (hq : n'.queue = n.queue) (hn : n'.next = n.next) : n'.waiting = n.waiting := by
  unfold waiting; rw [hq, hn]

/-- The helper keeps the invariant when the call was recorded. -/
theorem callInv_helper {C : NodeConfig} {m : Node} (a : ExpressArgs) (o : Outcome)
    (hw : ∀ b ∈ m.waiting, b.id ∈ calledIds m.trace) (he : ∀ b ∈ m.entries.map (·.args), b.id ∈ calledIds m.trace) (ha : a.id ∈ calledIds m.trace)
    (h3 : ∀ i, (calledIds m.trace).count i + (m.consume a).tokens.count i ≤ 1) (h4 : ∀ i ∈ calledIds m.trace, i ≤ m.lastId)
    (h5 : C.isAsync = true → calledIds m.trace = helperIds m.trace ++ [a.id] ++ m.waiting.map (·.id))
    (h6 : m.status = .complete → m.waiting = []) (h7 : C.isAsync = false → m.queue = []) (h8 : C.isAsync = true → .setComplete ∉ m.stack) :
    CallInv C (m.helperCore C a o) := by
  have main : ∀ m' : Node, m'.waiting = m.waiting → (∀ b ∈ m'.entries.map (·.args), b = a ∨ b ∈ m.entries.map (·.args)) →
      calledIds m'.trace = calledIds m.trace → helperIds m'.trace = helperIds m.trace ++ [a.id] → m'.tokens = (m.consume a).tokens → m'.lastId = m.lastId →
      m'.status = m.status → m'.queue = m.queue → m'.stack = m.stack → CallInv C m' := by
    intro m' e1 e2 e3 e4 e5 e6 e7 e8 e9
    refine ⟨?_, ?_, ?_, ?_, ?_, ?_, ?_, ?_⟩
    · rw [e1, e3]; exact hw
    · intro b hb
      rw [e3]
      rcases e2 b hb with rfl | h
      · exact ha
      · exact he b h
    · rw [e3, e5]; exact h3
    · rw [e3, e6]; exact h4
    · rw [e3, e4, e1]; exact h5
    · rw [e7, e1]; exact h6
    · rw [e8]; exact h7
    · rw [e9]; exact h8
  rcases helperCore_form C m a o with ⟨_, e⟩ | ⟨_, sq, dl, lt, evs, e, hevs⟩
  · rw [e]
    refine main _ rfl (fun b hb => .inr hb) ?_ ?_ rfl rfl rfl rfl rfl
    · dsimp only; rw [calledIds_append]; simp [calledIds]
    · dsimp only; rw [helperIds_append]; simp [helperIds]
  · rw [e]
    refine main _ rfl ?_ ?_ ?_ rfl rfl rfl rfl rfl
    · intro b hb
      dsimp only at hb
      rw [List.map_append, List.mem_append] at hb
      rcases hb with hb | hb
      · exact .inr hb
      · exact .inl (List.mem_singleton.mp hb)
    · dsimp only
      rw [calledIds_append, calledIds_append]
      rcases hevs with rfl | ⟨k, t, rfl⟩ <;> simp [calledIds]
    · dsimp only
      rw [helperIds_append, helperIds_append]
      rcases hevs with rfl | ⟨k, t, rfl⟩ <;> simp [helperIds]

theorem waiting_cons {n : Node} {a : ExpressArgs} (hq : n.queue[n.next]? = some a) : n.waiting = a :: n.queue.drop (n.next + 1) := by
  have hlt : n.next < n.queue.length := by
    refine Decidable.byContradiction fun h' => ?_
    rw [List.getElem?_eq_none (Nat.not_lt.mp h')] at hq
    cases hq
  unfold waiting
  rw [List.drop_eq_getElem_cons hlt]
  rw [List.getElem?_eq_getElem hlt, Option.some.injEq] at hq
  rw [hq]

/-- `next` does not pass the end of the queue. -/
theorem next_prim {C : NodeConfig} {n n' : Node} (h : Prim C n n') (hi : n.next ≤ n.queue.length) : n'.next ≤ n'.queue.length := by
  have run : ∀ (m : Node) (e : DelayedEntry) (now : Int), m.queue = n.queue → m.next = n.next → (m.runDelayed e now).next ≤ (m.runDelayed e now).queue.length := by
    intro m e now h1 h2
    rcases runDelayed_form m e now with ⟨_, e'⟩ | ⟨r, _, _, e'⟩ | ⟨r, x, _, hx, hr, hp, ⟨_, e'⟩ | ⟨_, evs, _, e'⟩⟩ <;> rw [e'] <;> dsimp only <;> rw [h1, h2] <;> exact hi
  have helper : ∀ (m : Node) (a : ExpressArgs) (o : Outcome), m.next ≤ m.queue.length → (m.helperCore C a o).next ≤ (m.helperCore C a o).queue.length := by
    intro m a o hm
    rcases helperCore_form C m a o with ⟨_, e⟩ | ⟨_, sq, dl, lt, evs, e, hevs⟩ <;> rw [e] <;> exact hm
  cases h with
  | callData d r rest s h =>
    rcases callOnData_form { n with stack := .deliver d rest :: s } r d with ⟨_, e⟩ | ⟨x, hx, k, fs, ps, rr, evs, st, e, _⟩ <;> rw [e] <;> exact hi
  | takeData d n' taken ha hx => rw [(extract_eq hx).2]; exact hi
  | takeNack k w n' taken ha hx => rw [(extract_eq hx).2]; exact hi
  | takeLost p n' taken hx => rw [(extract_eq hx).2]; exact hi
  | timer now e es s h hd hle => exact run _ e now rfl rfl
  | fire k e ha hk hle => exact run _ e _ rfl rfl
  | exprDirect a o htk hst ho => exact helper _ a o hi
  | exprQueue a c htk hst ha =>
    dsimp only
    rw [List.length_append]
    exact Nat.le_trans hi (Nat.le_add_right _ _)
  | runQueue a o s h hq ho =>
    refine helper _ a o ?_
    refine Nat.succ_le_of_lt (Decidable.byContradiction fun h' => ?_)
    rw [List.getElem?_eq_none (Nat.not_lt.mp h')] at hq
    cases hq
  | queueDone s h hq => exact Nat.le_refl _
  | removePending id => rw [removePending_eq]; exact hi
  | removeRegistered id => rw [removeRegistered_eq]; exact hi
  | later d => obtain ⟨dl, lt, e, _⟩ := callLater_form C n d .app; rw [e]; exact hi
  | _ => exact hi

theorem callInv_prim {C : NodeConfig} {n n' : Node} (hb : Base C n) (hn : n.next ≤ n.queue.length) (h : Prim C n n') (hi : CallInv C n) : CallInv C n' := by
  have same : ∀ m : Node, m.waiting = n.waiting → m.entries.map (·.args) = n.entries.map (·.args) → calledIds m.trace = calledIds n.trace →
      helperIds m.trace = helperIds n.trace → m.tokens = n.tokens → n.lastId ≤ m.lastId → m.status = n.status → m.queue = n.queue →
      (C.isAsync = true → .setComplete ∈ m.stack → .setComplete ∈ n.stack) → CallInv C m := by
    intro m h1 h2 h3 h4 h5 h6 h7 h8 h9
    exact callInv_same hi h1 h2 h3 h4 (fun i => by rw [h5]; exact Nat.le_refl _) h6 h7 h8 h9
  have fr : C.isAsync = true → Frame.setComplete ∈ n.stack → Frame.setComplete ∈ n.stack := fun _ h => h
  have top : ∀ {f g : Frame} {s : List Frame}, n.stack = f :: s → g ≠ .setComplete → C.isAsync = true → .setComplete ∈ g :: s → .setComplete ∈ n.stack := by
    intro f g s h hg _ hm
    rw [h]
    rcases List.mem_cons.mp hm with h | h
    · exact absurd h.symm hg
    · exact List.mem_cons_of_mem _ h
  have over : ∀ {g : Frame} {s : List Frame}, g ≠ .setComplete → (.setComplete ∈ s → .setComplete ∈ n.stack) → .setComplete ∈ g :: s → .setComplete ∈ n.stack := by
    intro g s hg hs hm
    rcases List.mem_cons.mp hm with h | h
    · exact absurd h.symm hg
    · exact hs h
  have run : ∀ (m : Node) (e : DelayedEntry) (now : Int), m.tokens = n.tokens → m.queue = n.queue → m.next = n.next → m.entries = n.entries → m.trace = n.trace →
      m.lastId = n.lastId → m.status = n.status → m.stack = n.stack → CallInv C (m.runDelayed e now) := by
    intro m e now h1 h2 h3 h4 h5 h6 h7 h8
    have hw := helper_waiting h2 h3
    rcases runDelayed_form m e now with ⟨_, e'⟩ | ⟨r, _, _, e'⟩ | ⟨r, x, _, hx, hr, hp, ⟨_, e'⟩ | ⟨_, evs, hevs, e'⟩⟩
    · rw [e']; exact same _ hw (by rw [← h4]) (by simp [calledIds, h5]) (by simp [helperIds, h5]) h1 (Nat.le_of_eq h6.symm) h7 h2 (fun _ => over (by simp) (by rw [h8]; exact id))
    · rw [e']; exact same _ hw (by rw [← h4]) (by simp [calledIds, h5]) (by simp [helperIds, h5]) h1 (Nat.le_of_eq h6.symm) h7 h2 (fun _ hm => h8 ▸ hm)
    · rw [e']; exact same _ hw (by rw [← h4]; exact markAll_args _ _) (by simp [calledIds, h5]) (by simp [helperIds, h5]) h1 (Nat.le_of_eq h6.symm) h7 h2 (fun _ hm => h8 ▸ hm)
    · rw [e']
      refine same _ hw (by rw [← h4]; exact markAll_args _ _) ?_ ?_ h1 (Nat.le_of_eq h6.symm) h7 h2 (fun _ => over (by simp) (by rw [h8]; exact id))
      · dsimp only; rw [calledIds_append, (calledIds_reg hevs).1]; simp [calledIds, h5]
      · dsimp only; rw [helperIds_append, (calledIds_reg hevs).2]; simp [helperIds, h5]
  cases h with
  | misc => exact same _ rfl rfl rfl rfl rfl (Nat.le_refl _) rfl rfl fr
  | push f ho hf =>
    refine same _ rfl rfl rfl rfl rfl (Nat.le_refl _) rfl rfl (fun ha => over ?_ id)
    rcases hf with ⟨c, rfl⟩ | ⟨t, rfl⟩ | ⟨rfl, _⟩ | ⟨rfl, h⟩
    · simp
    · simp
    · simp
    · rw [ha] at h; cases h
  | drop f s h hd hm => exact same _ rfl rfl rfl rfl rfl (Nat.le_refl _) rfl rfl (fun _ hm => by rw [h]; exact List.mem_cons_of_mem _ hm)
  | setComplete s h =>
    cases hx : C.isAsync with
    | true => exact absurd (by rw [h]; exact List.mem_cons_self ..) (hi.frames hx)
    | false =>
      have hq := hi.sync hx
      have hw : n.waiting = [] := by unfold waiting; rw [hq]; exact List.drop_nil
      exact ⟨hi.waiting, hi.entries, hi.once, hi.bound, fun h => (by rw [hx] at h; cases h), fun _ => hw, hi.sync, fun h => (by rw [hx] at h; cases h)⟩
  | callData d r rest s h =>
    rcases callOnData_form { n with stack := .deliver d rest :: s } r d with ⟨_, e⟩ | ⟨x, hx, k, fs, ps, rr, evs, st, e, hevs, hst, _⟩
    · rw [e]; exact same _ rfl rfl rfl rfl rfl (Nat.le_refl _) rfl rfl (top h (by simp))
    · rw [e]
      refine same _ rfl rfl ?_ ?_ rfl (Nat.le_add_right _ _) rfl rfl ?_
      · dsimp only; rw [calledIds_append, (calledIds_reg hevs).1]; simp [calledIds]
      · dsimp only; rw [helperIds_append, (calledIds_reg hevs).2]; simp [helperIds]
      · rcases hst with rfl | rfl
        · exact top h (by simp)
        · exact fun ha => over (by simp) (top h (by simp) ha)
  | callNack k r rest s h =>
    exact same _ rfl rfl (by simp [calledIds, emit, push]) (by simp [helperIds, emit, push]) rfl (Nat.le_refl _) rfl rfl (fun ha => over (by simp) (top h (by simp) ha))
  | callFilter i f rest s h =>
    exact same _ rfl rfl (by simp [calledIds, emit, push]) (by simp [helperIds, emit, push]) rfl (Nat.le_refl _) rfl rfl (fun ha => over (by simp) (top h (by simp) ha))
  | takeData d n' taken ha hx =>
    rw [(extract_eq hx).2]
    exact same _ rfl (markAll_args _ _) rfl rfl rfl (Nat.le_refl _) rfl rfl (fun _ => over (by simp) id)
  | takeNack k w n' taken ha hx =>
    rw [(extract_eq hx).2]
    exact same _ rfl (markAll_args _ _) rfl rfl rfl (Nat.le_refl _) rfl rfl (fun _ => over (by simp) id)
  | takeLost p n' taken hx =>
    rw [(extract_eq hx).2]
    exact same _ rfl (markAll_args _ _) rfl rfl rfl (Nat.le_refl _) rfl rfl fr
  | timer now e es s h hd hle => exact run _ e now rfl rfl rfl rfl rfl rfl rfl rfl
  | fire k e ha hk hle => exact run _ e _ rfl rfl rfl rfl rfl rfl rfl rfl
  | alloc =>
    obtain ⟨h1, h2, h3, h4, h5, h6, h7, h8⟩ := hi
    refine ⟨h1, h2, fun i => ?_, fun i hm => Nat.le_succ_of_le (h4 i hm), h5, h6, h7, h8⟩
    dsimp only
    have := h3 i
    rw [List.count_append, List.count_singleton]
    split
    · next h =>
      have h : n.lastId + 1 = i := by simpa using h
      have c1 : (calledIds n.trace).count i = 0 := List.count_eq_zero.mpr (fun hm => by have := h4 i hm; omega)
      have c2 : n.tokens.count i = 0 := List.count_eq_zero.mpr (fun hm => by have := hb.tokens i hm; omega)
      omega
    · omega
  | exprDirect a o htk hst ho =>
    obtain ⟨h1, h2, h3, h4, h5, h6, h7, h8⟩ := hi
    have ec : calledIds (n.emit (.called a.id)).trace = calledIds n.trace ++ [a.id] := by simp [calledIds, emit]
    have eh : helperIds (n.emit (.called a.id)).trace = helperIds n.trace := by simp [helperIds, emit]
    have hc := consume_count (n := n.emit (.called a.id)) htk
    refine callInv_helper a o ?_ ?_ ?_ ?_ ?_ ?_ h6 h7 h8
    · intro b hm; rw [ec]; exact List.mem_append_left _ (h1 b hm)
    · intro b hm; rw [ec]; exact List.mem_append_left _ (h2 b hm)
    · rw [ec]; simp
    · intro i
      have c1 := hc i
      have c2 := h3 i
      rw [ec, List.count_append, List.count_singleton]
      have e2 : (n.emit (.called a.id)).tokens = n.tokens := rfl
      rw [e2] at c1
      have : (if (a.id == i) = true then 1 else 0) ≤ (argIds a).count i := by
        split
        · next h =>
          have h : a.id = i := by simpa using h
          subst h
          refine List.count_pos_iff.mpr ?_
          unfold argIds; split <;> simp
        · exact Nat.zero_le _
      omega
    · intro i hm
      rw [ec] at hm
      rcases List.mem_append.mp hm with hm | hm
      · exact h4 i hm
      · rw [List.mem_singleton.mp hm]; exact hb.tokens _ htk.1
    · intro ha
      have hw : n.waiting = [] := h6 (by rcases hst with h | h; exact h; rw [ha] at h; cases h)
      have e3 : (n.emit (.called a.id)).waiting = n.waiting := rfl
      rw [ec, eh, h5 ha, e3, hw]
      simp
  | exprQueue a c htk hst ha =>
    obtain ⟨h1, h2, h3, h4, h5, h6, h7, h8⟩ := hi
    have ec : calledIds (n.emit (.called a.id)).trace = calledIds n.trace ++ [a.id] := by simp [calledIds, emit]
    have eh : helperIds (n.emit (.called a.id)).trace = helperIds n.trace := by simp [helperIds, emit]
    have hc := consume_count (n := n.emit (.called a.id)) htk
    have hw : ∀ m : Node, m.queue = n.queue ++ [a] → m.next = n.next → m.waiting = n.waiting ++ [a] := by
      intro m e1 e2
      unfold waiting
      rw [e1, e2, List.drop_append, Nat.sub_eq_zero_of_le hn]
      rfl
    have hw' := hw { (n.emit (.called a.id)).consume a with queue := n.queue ++ [a], status := .requested, connecting := c } rfl rfl
    refine ⟨?_, ?_, ?_, ?_, ?_, ?_, ?_, h8⟩
    · rw [hw']
      intro b hm
      show b.id ∈ calledIds (n.emit (.called a.id)).trace
      rw [ec]
      rcases List.mem_append.mp hm with hm | hm
      · exact List.mem_append_left _ (h1 b hm)
      · rw [List.mem_singleton.mp hm]; simp
    · intro b hm
      show b.id ∈ calledIds (n.emit (.called a.id)).trace
      rw [ec]; exact List.mem_append_left _ (h2 b hm)
    · intro i
      show (calledIds (n.emit (.called a.id)).trace).count i + ((n.emit (.called a.id)).consume a).tokens.count i ≤ 1
      have c1 := hc i
      have c2 := h3 i
      rw [ec, List.count_append, List.count_singleton]
      have e2 : (n.emit (.called a.id)).tokens = n.tokens := rfl
      rw [e2] at c1
      have : (if (a.id == i) = true then 1 else 0) ≤ (argIds a).count i := by
        split
        · next h =>
          have h : a.id = i := by simpa using h
          subst h
          refine List.count_pos_iff.mpr ?_
          unfold argIds; split <;> simp
        · exact Nat.zero_le _
      omega
    · intro i hm
      change i ∈ calledIds (n.emit (.called a.id)).trace at hm
      rw [ec] at hm
      rcases List.mem_append.mp hm with hm | hm
      · exact h4 i hm
      · rw [List.mem_singleton.mp hm]; exact hb.tokens _ htk.1
    · intro hx
      rw [hw']
      show calledIds (n.emit (.called a.id)).trace = helperIds (n.emit (.called a.id)).trace ++ _
      rw [ec, eh, h5 hx]
      simp
    · intro h; cases h
    · intro h; rw [ha] at h; cases h
  | exprFail a htk ha =>
    obtain ⟨h1, h2, h3, h4, h5, h6, h7, h8⟩ := hi
    have ec : calledIds (n.emit (.called a.id)).trace = calledIds n.trace ++ [a.id] := by simp [calledIds, emit]
    have hc := consume_count (n := n.emit (.called a.id)) htk
    refine ⟨?_, ?_, ?_, ?_, ?_, h6, h7, h8⟩
    · intro b hm
      show b.id ∈ calledIds (n.emit (.called a.id)).trace
      rw [ec]; exact List.mem_append_left _ (h1 b hm)
    · intro b hm
      show b.id ∈ calledIds (n.emit (.called a.id)).trace
      rw [ec]; exact List.mem_append_left _ (h2 b hm)
    · intro i
      show (calledIds (n.emit (.called a.id)).trace).count i + ((n.emit (.called a.id)).consume a).tokens.count i ≤ 1
      have c1 := hc i
      have c2 := h3 i
      rw [ec, List.count_append, List.count_singleton]
      have e2 : (n.emit (.called a.id)).tokens = n.tokens := rfl
      rw [e2] at c1
      have : (if (a.id == i) = true then 1 else 0) ≤ (argIds a).count i := by
        split
        · next h =>
          have h : a.id = i := by simpa using h
          subst h
          refine List.count_pos_iff.mpr ?_
          unfold argIds; split <;> simp
        · exact Nat.zero_le _
      omega
    · intro i hm
      change i ∈ calledIds (n.emit (.called a.id)).trace at hm
      rw [ec] at hm
      rcases List.mem_append.mp hm with hm | hm
      · exact h4 i hm
      · rw [List.mem_singleton.mp hm]; exact hb.tokens _ htk.1
    · intro hx; rw [ha] at hx; cases hx
  | runQueue a o s h hq ho =>
    obtain ⟨h1, h2, h3, h4, h5, h6, h7, h8⟩ := hi
    have hw := waiting_cons hq
    have hw' : waiting { n with next := n.next + 1 } = n.queue.drop (n.next + 1) := rfl
    refine callInv_helper a o ?_ h2 ?_ ?_ h4 ?_ ?_ h7 h8
    · intro b hm
      exact h1 b (by rw [hw]; exact List.mem_cons_of_mem _ (by rw [← hw']; exact hm))
    · exact h1 a (by rw [hw]; exact List.mem_cons_self ..)
    · intro i
      have c1 := consume_count_le { n with next := n.next + 1 } a i
      have c2 := h3 i
      dsimp only at c1 ⊢
      omega
    · intro hx
      rw [hw']
      show calledIds n.trace = helperIds n.trace ++ _ ++ _
      rw [h5 hx, hw]
      simp
    · intro hs
      have := h6 hs
      rw [hw] at this
      cases this
  | queueDone s h hq =>
    obtain ⟨h1, h2, h3, h4, h5, h6, h7, h8⟩ := hi
    have hw : n.waiting = [] := by
      unfold waiting
      exact List.drop_eq_nil_of_le (List.getElem?_eq_none_iff.mp hq)
    refine ⟨fun a hm => ?_, h2, h3, h4, ?_, fun _ => rfl, fun _ => rfl, fun ha hm => h8 ha (by rw [h]; exact List.mem_cons_of_mem _ hm)⟩
    · change a ∈ [] at hm; cases hm
    · intro hx
      rw [hw] at h5
      exact h5 hx
  | removePending id => rw [removePending_eq]; exact same _ rfl (markAll_args _ _) rfl rfl rfl (Nat.le_refl _) rfl rfl fr
  | removeRegistered id => rw [removeRegistered_eq]; exact same _ rfl rfl rfl rfl rfl (Nat.le_refl _) rfl rfl fr
  | setFilter id p r htk =>
    refine callInv_same hi rfl rfl (by simp [calledIds, emit]) (by simp [helperIds, emit]) (fun i => ?_) (Nat.le_refl _) rfl rfl fr
    exact List.erase_sublist.count_le i
  | unset id => exact same _ rfl rfl rfl rfl rfl (Nat.le_refl _) rfl rfl fr
  | dispatch i fs hm ho => exact same _ rfl rfl rfl rfl rfl (Nat.le_refl _) rfl rfl (fun _ => over (by simp) id)
  | later d =>
    obtain ⟨dl, lt, e, _⟩ := callLater_form C n d .app
    rw [e]
    exact same _ rfl rfl (by simp [calledIds]) (by simp [helperIds]) rfl (Nat.le_refl _) rfl rfl fr
  | note e he => rcases he with ⟨w, rfl, _⟩ | ⟨i, rfl⟩ | rfl | rfl | ⟨j, rfl⟩ <;> exact same _ rfl rfl (by simp [calledIds, emit]) (by simp [helperIds, emit]) rfl (Nat.le_refl _) rfl rfl fr

theorem callInv_init (C : NodeConfig) : CallInv C {} :=
  ⟨fun a h => by simp [waiting] at h, fun a h => by simp at h, fun i => by simp [calledIds], fun i h => by simp [calledIds] at h,
   fun _ => rfl, fun _ => rfl, fun _ => rfl, fun _ h => by simp at h⟩

theorem reachable_callInv {C : NodeConfig} {n : Node} (h : Reachable C n) : CallInv C n := by
  refine (reachable_induction (P := fun n => n.next ≤ n.queue.length ∧ CallInv C n) ⟨Nat.le_refl _, callInv_init C⟩ ?_ h).2
  exact fun n n' hb hp hi => ⟨next_prim hp hi.1, callInv_prim hb hi.1 hp hi.2⟩

/-! ### All of it -/

/-- The invariants together. -/
structure Inv (C : NodeConfig) (n : Node) : Prop where
  base : Base C n
  ref : RefInv n
  id : IdInv n
  next : n.next ≤ n.queue.length
  call : CallInv C n

theorem inv_prim {C : NodeConfig} {n n' : Node} (h : Prim C n n') (hi : Inv C n) : Inv C n' :=
  ⟨base_prim h hi.base, refInv_prim h hi.ref, idInv_prim h hi.id, next_prim h hi.next, callInv_prim hi.base hi.next h hi.call⟩

theorem reachable_inv {C : NodeConfig} {n : Node} (h : Reachable C n) : Inv C n :=
  ⟨reachable_base h, reachable_refInv h, reachable_idInv h,
   (reachable_induction (P := fun n => n.next ≤ n.queue.length ∧ CallInv C n) ⟨Nat.le_refl _, callInv_init C⟩
     (fun _ _ hb hp hi => ⟨next_prim hp hi.1, callInv_prim hb hi.1 hp hi.2⟩) h).1, reachable_callInv h⟩

/-- A property that every primitive change preserves, given the invariants, holds later if it holds now. -/
theorem later_induction {C : NodeConfig} {P : Node → Prop} (hP : ∀ n n', Inv C n → Prim C n n' → P n → P n')
    {n : Node} (h : Inv C n) (h0 : P n) (as : List Action) : P (n.run C as) :=
  (run_preserves (P := fun n => Inv C n ∧ P n) (fun n n' _ hp hi => ⟨inv_prim hp hi.1, hP n n' hi.1 hp hi.2⟩) as h.base ⟨h, h0⟩).2.2

theorem reachable_induction' {C : NodeConfig} {P : Node → Prop} (h0 : P {})
    (hP : ∀ n n', Inv C n → Prim C n n' → P n → P n') {n : Node} (h : Reachable C n) : P n := by
  obtain ⟨as, rfl⟩ := h
  exact later_induction hP (reachable_inv ⟨[], rfl⟩) h0 as

/-- An id belongs to one entry object. -/
theorem entry_unique {C : NodeConfig} {n : Node} (hi : Inv C n) {r s : Nat} {a b : PitEntry} (hr : n.entries[r]? = some a) (hs : n.entries[s]? = some b)
    {i : Nat} (ha : i ∈ argIds a.args) (hb : i ∈ argIds b.args) : r = s := by
  have h : ((n.entries.map (·.args)).flatMap argIds).count i ≤ 1 := by
    have := hi.id.once i
    unfold idCount at this
    omega
  revert h hr hs
  generalize n.entries = l
  induction l generalizing r s with
  | nil => intro hr; simp at hr
  | cons x l ih =>
    intro hr hs h
    simp only [List.map_cons, List.flatMap_cons, List.count_append] at h
    have inl : ∀ {k : Nat} {c : PitEntry}, l[k]? = some c → i ∈ argIds c.args → ((l.map (·.args)).flatMap argIds).count i ≥ 1 := by
      intro k c hk hc
      refine List.count_pos_iff.mpr (List.mem_flatMap.mpr ⟨c.args, ?_, hc⟩)
      exact List.mem_map.mpr ⟨c, List.mem_of_getElem? hk, rfl⟩
    cases r with
    | zero =>
      cases s with
      | zero => rfl
      | succ s =>
        simp at hr hs
        subst hr
        have := inl hs hb
        have := List.count_pos_iff.mpr ha
        omega
    | succ r =>
      cases s with
      | zero =>
        simp at hr hs
        subst hs
        have := inl hr ha
        have := List.count_pos_iff.mpr hb
        omega
      | succ s =>
        simp at hr hs
        rw [ih hr hs (by omega)]

theorem id_mem_argIds (a : ExpressArgs) : a.id ∈ argIds a := by
  unfold argIds; split <;> simp

end Node
end PyNDN
