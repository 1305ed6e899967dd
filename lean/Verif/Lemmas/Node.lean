import Verif.Model.Node
/-
The steps of a Node as sequences of primitive changes, and an induction principle for reachable states.
-/
namespace PyNDN
namespace Node

/-- The frames that hold no work. -/
def Frame.done : Frame → Bool
  | .deliver _ (_ :: _) => false
  | .nack _ (_ :: _) => false
  | .dispatch _ (_ :: _) => false
  | _ => true

/-- Which frame can be above which. -/
def over (f : Frame) (s : List Frame) : Prop :=
  match f with
  | .app .main => s = []
  | .app .guarded => s ≠ []
  | .app .unguarded => ∃ g s', s = g :: s' ∧ (isApp g = true ∨ ∃ t, g = .timers t)
  | .dispatch _ _ => ∃ g s', s = g :: s' ∧ (isApp g = true ∨ g = .connected ∨ g = .setComplete)
  | _ => ∃ g s', s = g :: s' ∧ isApp g = true

def StackOk : List Frame → Prop
  | [] => False
  | [f] => over f []
  | f :: s => over f s ∧ StackOk s

theorem stackOk_cons {f : Frame} {s : List Frame} (h : over f s) (hs : StackOk s) : StackOk (f :: s) := by
  cases s with
  | nil => cases hs
  | cons g s => exact ⟨h, hs⟩

theorem stackOk_over {f : Frame} {s : List Frame} (h : StackOk (f :: s)) : over f s := by
  cases s with
  | nil => exact h
  | cons g s => exact h.1

theorem stackOk_tail {f : Frame} {s : List Frame} (h : StackOk (f :: s)) (hf : f ≠ .app .main) : StackOk s := by
  cases s with
  | nil =>
    cases f with
    | app c => cases c <;> simp [StackOk, over] at h hf
    | _ => simp [StackOk, over] at h
  | cons g s => exact h.2

/-- The tokens for a call are there. -/
def TokOk (n : Node) (a : ExpressArgs) : Prop :=
  a.id ∈ n.tokens ∧ ∀ r p hi hs, a.handler = .register r p hi hs → r ∈ n.tokens ∧ r ≠ a.id

/-- The part of `expressHelper` that changes the tables. -/
def helperCore (C : NodeConfig) (n : Node) (a : ExpressArgs) (o : Outcome) : Node :=
  (if o = .removed then { n.consume a with removeRequests := n.removeRequests.erase a.id }
   else (n.consume a).addEntry C a).emit (.helper a.id o)

/-- What is sent is the encoding and is not too long. -/
def SentOk (a : ExpressArgs) (o : Outcome) : Prop := ∀ w, o = .sent w → a.wire = .ok w ∧ w.length ≤ maxNdnPacketSize

/-- Events that come with no change of the tables. -/
def NoteEv (e : Ev) : Prop := (∃ w, e = .sentRaw w ∧ w.length ≤ maxNdnPacketSize) ∨ (∃ id, e = .removeCalled id) ∨ e = .matchRaised ∨ e = .connectedCalled ∨ ∃ id, e = .prefixRemoveCalled id

inductive Prim (C : NodeConfig) : Node → Node → Prop
  | misc (n : Node) (connecting loopback : Bool) (now : Int) :
      Prim C n { n with connecting := connecting, loopback := loopback, now := now }
  | push (n : Node) (f : Frame) (ho : over f n.stack) (hf : (∃ c, f = .app c) ∨ (∃ t, f = .timers t) ∨ (f = .connected ∧ Ev.connectedCalled ∈ n.trace) ∨
      (f = .setComplete ∧ C.isAsync = false)) : Prim C n (n.push f)
  | drop (n : Node) (f : Frame) (s : List Frame) (h : n.stack = f :: s) (hd : Frame.done f = true) (hm : f ≠ .app .main) :
      Prim C n { n with stack := s }
  | setComplete (n : Node) (s : List Frame) (h : n.stack = .setComplete :: s) :
      Prim C n { n with status := .complete, stack := s }
  | callData (n : Node) (d : RxData) (r : Nat) (rest : List Nat) (s : List Frame)
      (h : n.stack = .deliver d (r :: rest) :: s) :
      Prim C n ({ n with stack := .deliver d rest :: s }.callOnData r d)
  | callNack (n : Node) (k : NetworkNack) (r : Nat) (rest : List Nat) (s : List Frame)
      (h : n.stack = .nack k (r :: rest) :: s) :
      Prim C n (({ n with stack := .nack k rest :: s }.emit (.onNack (n.idOf r) r k)).push (.app .guarded))
  | callFilter (n : Node) (i : Interest) (f : FilterEntry) (rest : List FilterEntry) (s : List Frame)
      (h : n.stack = .dispatch i (f :: rest) :: s) :
      Prim C n (({ n with stack := .dispatch i rest :: s }.emit (.onInterest f.id i)).push (.app .guarded))
  | takeData (n : Node) (d : RxData) (n' : Node) (taken : List Nat) (ha : ∃ c s, n.stack = .app c :: s)
      (hx : n.extract (n.matchesEntry d) = (n', taken, false)) : Prim C n (n'.push (.deliver d taken))
  | takeNack (n : Node) (k : NetworkNack) (w : Bytes) (n' : Node) (taken : List Nat) (ha : ∃ c s, n.stack = .app c :: s)
      (hx : n.extract (n.nackEntry w) = (n', taken, false)) : Prim C n (n'.push (.nack k taken))
  | takeLost (n : Node) (p : Nat → Except Err Bool) (n' : Node) (taken : List Nat)
      (hx : n.extract p = (n', taken, true)) (ht : Ev.matchRaised ∈ n.trace) : Prim C n n'
  | timer (n : Node) (now : Int) (e : DelayedEntry) (es : List DelayedEntry) (s : List Frame)
      (h : n.stack = .timers now :: s) (hd : n.delayed = e :: es) (ht : e.time ≤ now) :
      Prim C n ({ n with delayed := es }.runDelayed e now)
  | fire (n : Node) (k : Nat) (e : DelayedEntry) (ha : ∃ c s, n.stack = .app c :: s) (hk : n.loopTimers[k]? = some e)
      (ht : e.time ≤ n.now) : Prim C n ({ n with loopTimers := n.loopTimers.eraseIdx k }.runDelayed e n.now)
  | alloc (n : Node) : Prim C n { n with lastId := n.lastId + 1, tokens := n.tokens ++ [n.lastId + 1] }
  | exprDirect (n : Node) (a : ExpressArgs) (o : Outcome) (ht : TokOk n a) (hs : n.status = .complete ∨ C.isAsync = false)
      (ho : (o = .removed ↔ a.id ∈ n.removeRequests) ∧ SentOk a o) : Prim C n ((n.emit (.called a.id)).helperCore C a o)
  | exprQueue (n : Node) (a : ExpressArgs) (connecting : Bool) (ht : TokOk n a) (hs : n.status ≠ .complete) (ha : C.isAsync = true) :
      Prim C n { (n.emit (.called a.id)).consume a with
        queue := n.queue ++ [a], status := .requested, connecting := connecting }
  | exprFail (n : Node) (a : ExpressArgs) (ht : TokOk n a) (ha : C.isAsync = false) :
      Prim C n ((n.emit (.called a.id)).consume a)
  | runQueue (n : Node) (a : ExpressArgs) (o : Outcome) (s : List Frame) (h : n.stack = .connected :: s)
      (hq : n.queue[n.next]? = some a) (ho : (o = .removed ↔ a.id ∈ n.removeRequests) ∧ SentOk a o) :
      Prim C n ({ n with next := n.next + 1 }.helperCore C a o)
  | queueDone (n : Node) (s : List Frame) (h : n.stack = .connected :: s) (hq : n.queue[n.next]? = none) :
      Prim C n { n with queue := [], next := 0, status := .complete, stack := s }
  | removePending (n : Node) (id : Nat) (ht : Ev.removeCalled id ∈ n.trace) : Prim C n (n.removePendingInterest id)
  | removeRegistered (n : Node) (id : Nat) (ht : Ev.prefixRemoveCalled id ∈ n.trace) : Prim C n (n.removeRegisteredPrefix id)
  | setFilter (n : Node) (id : Nat) (p : Name) (regex : Option Nat) (ht : id ∈ n.tokens) :
      Prim C n { n.emit (.filterSet ⟨id, p, regex, none⟩) with tokens := n.tokens.erase id, filters := n.filters ++ [⟨id, p, regex, none⟩] }
  | unset (n : Node) (id : Nat) : Prim C n (n.unsetInterestFilter id)
  | dispatch (n : Node) (i : Interest) (fs : List FilterEntry) (hm : matchedFilters C i.name n.filters = .ok fs)
      (ho : over (.dispatch i fs) n.stack) : Prim C n (n.push (.dispatch i fs))
  | later (n : Node) (delay : Int) : Prim C n (n.callLater C delay .app)
  | note (n : Node) (e : Ev) (he : NoteEv e) : Prim C n (n.emit e)

inductive Prims (C : NodeConfig) : Node → Node → Prop
  | refl (n : Node) : Prims C n n
  | head {a b c : Node} (h : Prim C a b) (t : Prims C b c) : Prims C a c

theorem Prims.one {C : NodeConfig} {a b : Node} (h : Prim C a b) : Prims C a b := .head h (.refl b)

theorem Prims.trans {C : NodeConfig} {a b c : Node} (h : Prims C a b) (t : Prims C b c) : Prims C a c := by
  induction h with
  | refl => exact t
  | head h _ ih => exact .head h (ih t)

/-- What the decomposition needs to know about a state. -/
structure Base (C : NodeConfig) (n : Node) : Prop where
  stack : StackOk n.stack
  tokens : ∀ t ∈ n.tokens, t ≤ n.lastId

/-! ### The stack after each function -/

theorem callLater_stack (C : NodeConfig) (n : Node) (d : Int) (c : Delayed) : (n.callLater C d c).stack = n.stack := by
  unfold callLater; dsimp only; split <;> rfl

theorem addEntry_stack (C : NodeConfig) (n : Node) (a : ExpressArgs) : (n.addEntry C a).stack = n.stack := by
  unfold addEntry; dsimp only; split
  · rw [callLater_stack]
  · rfl

theorem helperCore_stack (C : NodeConfig) (n : Node) (a : ExpressArgs) (o : Outcome) : (n.helperCore C a o).stack = n.stack := by
  unfold helperCore
  split
  · rfl
  · exact addEntry_stack C (n.consume a) a

/-- `expressHelper` in terms of `helperCore`. -/
theorem expressHelper_cases (C : NodeConfig) (n : Node) (a : ExpressArgs) (sendOk : Bool) :
    (∃ o b, ((o = .removed ↔ a.id ∈ n.removeRequests) ∧ SentOk a o) ∧ n.expressHelper C a sendOk = (n.helperCore C a o, b)) ∨
    (∃ w, (¬ a.id ∈ n.removeRequests ∧ SentOk a (.sent w)) ∧
      n.expressHelper C a sendOk = (n.helperCore C a (.sent w)).dispatchInterest C a.interest) := by
  unfold expressHelper
  dsimp only
  have hr : (n.consume a).removeRequests = n.removeRequests := rfl
  rw [hr]
  split
  · next h => exact .inl ⟨.removed, false, ⟨by simp [h], fun _ hc => by cases hc⟩, by simp [helperCore]⟩
  · next h =>
    split
    · exact .inl ⟨.local, false, ⟨by simp [h], fun _ hc => by cases hc⟩, by simp [helperCore]⟩
    · split
      · exact .inl ⟨.failed, true, ⟨by simp [h], fun _ hc => by cases hc⟩, by simp [helperCore]⟩
      · split
        · exact .inl ⟨.failed, true, ⟨by simp [h], fun _ hc => by cases hc⟩, by simp [helperCore]⟩
        · next w hw hlen =>
          have hs : SentOk a (.sent w) := by
            intro x hx
            cases hx
            exact ⟨hw, by omega⟩
          split
          · exact .inr ⟨w, ⟨h, hs⟩, by simp [helperCore]⟩
          · exact .inl ⟨.sent w, false, ⟨by simp [h], hs⟩, by simp [helperCore]⟩

theorem dispatch_prims (C : NodeConfig) (n : Node) (i : Interest)
    (hs : ∃ g s, n.stack = g :: s ∧ (isApp g = true ∨ g = .connected ∨ g = .setComplete)) :
    ((n.dispatchInterest C i).2 = false ∧ Prims C n (n.dispatchInterest C i).1) ∨ n.dispatchInterest C i = (n, true) := by
  unfold dispatchInterest
  split
  · exact .inr rfl
  · next fs hm => exact .inl ⟨rfl, .one (.dispatch n i fs hm hs)⟩

/-- An exception that leaves the library when at most one frame is above the application's. -/
theorem unwind_prims (C : NodeConfig) (n : Node)
    (hs : ∃ g s, n.stack = g :: s ∧ (isApp g = true ∨ (Frame.done g = true ∧ g ≠ .app .main ∧ ∃ g' s', s = g' :: s' ∧ isApp g' = true))) :
    Prims C n n.unwind := by
  obtain ⟨g, s, h, hg⟩ := hs
  unfold unwind
  rw [h]
  by_cases ha : isApp g = true
  · have : List.dropWhile (fun f => !isApp f) (g :: s) = n.stack := by simp [List.dropWhile, ha, h]
    rw [this]
    exact .refl n
  · obtain ⟨hd, hm, g', s', hs, hg'⟩ := hg.resolve_left ha
    have : List.dropWhile (fun f => !isApp f) (g :: s) = s := by simp [List.dropWhile, ha, hs, hg']
    rw [this]
    exact .one (.drop n g s h hd hm)

/-- The helper and the exception it may raise. -/
theorem finish_helper_prims (C : NodeConfig) (n m : Node) (a : ExpressArgs) (sendOk : Bool)
    (hcore : ∀ o, (o = .removed ↔ a.id ∈ n.removeRequests) ∧ SentOk a o → Prims C m (n.helperCore C a o))
    (hs : ∃ g s, n.stack = g :: s ∧ (isApp g = true ∨ ((g = .connected ∨ g = .setComplete) ∧ ∃ g' s', s = g' :: s' ∧ isApp g' = true))) :
    Prims C m (finish (n.expressHelper C a sendOk)) := by
  obtain ⟨g, s, hst, hg⟩ := hs
  have un : ∀ o, ∃ g s, (n.helperCore C a o).stack = g :: s ∧ (isApp g = true ∨ (Frame.done g = true ∧ g ≠ .app .main ∧ ∃ g' s', s = g' :: s' ∧ isApp g' = true)) := by
    intro o
    refine ⟨g, s, by rw [helperCore_stack, hst], ?_⟩
    rcases hg with h | ⟨h, h'⟩
    · exact .inl h
    · refine .inr ⟨?_, ?_, h'⟩ <;> rcases h with rfl | rfl <;> simp [Frame.done]
  rcases expressHelper_cases C n a sendOk with ⟨o, b, h1, h2⟩ | ⟨w, h1, h2⟩
  · rw [h2]
    unfold finish
    split
    · exact (hcore o h1).trans (unwind_prims C _ (un o))
    · exact hcore o h1
  · rw [h2]
    have hc := hcore (.sent w) ⟨by simp [h1.1], h1.2⟩
    rcases dispatch_prims C (n.helperCore C a (.sent w)) a.interest
      ⟨g, s, by rw [helperCore_stack, hst], by rcases hg with h | ⟨h, _⟩; exact .inl h; exact .inr h⟩ with ⟨e, h⟩ | e
    · unfold finish
      rw [e]
      exact hc.trans h
    · rw [e]
      exact hc.trans (unwind_prims C _ (un (.sent w)))

theorem isApp_iff {g : Frame} : isApp g = true ↔ ∃ c, g = .app c := by
  cases g <;> simp [isApp]

theorem expressArgs_prims (C : NodeConfig) (n : Node) (a : ExpressArgs) (c s : Bool) (ht : TokOk n a)
    (ha : ∃ g s, n.stack = .app g :: s) : Prims C n (n.expressArgs C a c s) := by
  obtain ⟨g, st, hst⟩ := ha
  have hsync : C.isAsync = false → Prims C n (finish (((n.emit (.called a.id)).push .setComplete).expressHelper C a s)) := by
    intro hx
    refine finish_helper_prims C _ n a s (fun o ho => ?_) ⟨.setComplete, n.stack, rfl, .inr ⟨.inr rfl, _, _, hst, rfl⟩⟩
    refine .head (.exprDirect n a o ht (.inr hx) ho) (.head (.push _ .setComplete ?_ (.inr (.inr (.inr ⟨rfl, hx⟩)))) ?_)
    · exact ⟨_, _, (helperCore_stack C _ a o).trans hst, rfl⟩
    · have : (((n.emit (.called a.id)).helperCore C a o).push .setComplete) = (((n.emit (.called a.id)).push .setComplete).helperCore C a o) := by
        unfold helperCore
        split
        · rfl
        · unfold addEntry
          dsimp only
          split
          · unfold callLater
            dsimp only
            split <;> rfl
          · rfl
      rw [this]
      exact .refl _
  have hfail : C.isAsync = false → Prims C n ((n.emit (.called a.id)).consume a).unwind := by
    intro hx
    exact (Prims.one (.exprFail n a ht hx)).trans (unwind_prims C _ ⟨_, _, hst, .inl rfl⟩)
  unfold expressArgs
  dsimp only
  have es : (n.emit (.called a.id)).status = n.status := rfl
  rw [es]
  cases hstat : n.status with
  | complete =>
    exact finish_helper_prims C _ n a s (fun o ho => .one (.exprDirect n a o ht (.inl hstat) ho)) ⟨_, _, hst, .inl rfl⟩
  | unconnected =>
    dsimp only
    cases hx : C.isAsync with
    | false =>
      simp only [Bool.not_false, if_true]
      cases c with
      | false => exact hfail hx
      | true => exact hsync hx
    | true =>
      simp only [Bool.not_true, Bool.false_eq_true, if_false]
      have hq := Prim.exprQueue (C := C) n a c ht (by rw [hstat]; simp) hx
      cases c with
      | false => exact (Prims.one hq).trans (unwind_prims C _ ⟨_, _, hst, .inl rfl⟩)
      | true => exact .one hq
  | requested =>
    dsimp only
    cases hx : C.isAsync with
    | false =>
      simp only [Bool.not_false, if_true]
      cases c with
      | false => exact hfail hx
      | true => exact hsync hx
    | true =>
      simp only [Bool.not_true, Bool.false_eq_true, if_false]
      have hq := Prim.exprQueue (C := C) n a n.connecting ht (by rw [hstat]; simp) hx
      have : ({ (n.emit (.called a.id)).consume a with queue := n.queue ++ [a] } : Node) =
          { (n.emit (.called a.id)).consume a with queue := n.queue ++ [a], status := .requested, connecting := n.connecting } := by
        simp [emit, consume, hstat]
      exact this ▸ .one hq


/-! ### Closed forms -/

/-- Entry objects after some were marked as removed. -/
def markAll (es : List PitEntry) (l : List Nat) : List PitEntry :=
  l.foldl (fun es r => es.modify r (fun e => { e with removed := true })) es

theorem foldl_markRemoved (l : List Nat) (n : Node) : l.foldl markRemoved n = { n with entries := markAll n.entries l } := by
  induction l generalizing n with
  | nil => rfl
  | cons r l ih => rw [List.foldl_cons, ih]; rfl

theorem extract_eq {n n' : Node} {p : Nat → Except Err Bool} {taken : List Nat} {b : Bool} (h : n.extract p = (n', taken, b)) :
    (extractRev p n.pit.reverse).2 = (taken, b) ∧
    n' = { n with pit := (extractRev p n.pit.reverse).1.reverse, entries := markAll n.entries taken } := by
  unfold extract at h
  generalize extractRev p n.pit.reverse = x at h
  obtain ⟨k, t, b'⟩ := x
  simp only [Prod.mk.injEq] at h
  obtain ⟨h1, rfl, rfl⟩ := h
  refine ⟨rfl, ?_⟩
  rw [← h1, foldl_markRemoved]

theorem removePending_eq (n : Node) (id : Nat) : n.removePendingInterest id =
    { n with pit := n.pit.filter (fun r => ¬ n.idOf r = id), entries := markAll n.entries (n.pit.filter (fun r => n.idOf r = id)),
             removeRequests := (if n.pit.filter (fun r => n.idOf r = id) = [] ∧ id ∉ n.removeRequests then n.removeRequests ++ [id] else n.removeRequests) } := by
  unfold removePendingInterest
  simp only [foldl_markRemoved]
  split <;> rfl

theorem foldl_unset (l : List PrefixEntry) (n : Node) :
    l.foldl (fun n p => if p.filterId > 0 then n.unsetInterestFilter p.filterId else n) n =
    { n with filters := n.filters.filter (fun f => ∀ p ∈ l, p.filterId > 0 → f.id ≠ p.filterId) } := by
  induction l generalizing n with
  | nil =>
    have : n.filters.filter (fun f => decide (∀ p ∈ ([] : List PrefixEntry), p.filterId > 0 → f.id ≠ p.filterId)) = n.filters := by simp
    rw [this]; rfl
  | cons a l ih =>
    rw [List.foldl_cons, ih]
    split
    · next h => simp [unsetInterestFilter, List.filter_filter, h, Bool.and_comm]
    · next h => simp [h]

theorem removeRegistered_eq (n : Node) (id : Nat) : n.removeRegisteredPrefix id =
    { n with prefixes := n.prefixes.filter (fun p => ¬ p.id = id),
             filters := n.filters.filter (fun f => decide (∀ p ∈ n.prefixes.filter (fun (p : PrefixEntry) => decide (p.id = id)), p.filterId > 0 → f.id ≠ p.filterId)),
             prefixRemoveRequests := if n.prefixes.filter (fun p => p.id = id) = [] ∧ id ∉ n.prefixRemoveRequests
               then n.prefixRemoveRequests ++ [id] else n.prefixRemoveRequests } := by
  unfold removeRegisteredPrefix
  simp only [foldl_unset]
  split <;> rfl

/-! ### A step is a sequence of primitive changes -/

theorem app_stack {C : NodeConfig} {n : Node} {f : Frame} {s : List Frame} (hb : Base C n) (h : n.stack = f :: s)
    (hf : isApp f = false) (hd : ∀ i fs, f ≠ .dispatch i fs) : ∃ c s', s = .app c :: s' := by
  have ho := stackOk_over (h ▸ hb.stack)
  have : ∃ g s', s = g :: s' ∧ isApp g = true := by
    cases f with
    | app c => cases hf
    | dispatch i fs => exact absurd rfl (hd i fs)
    | _ => exact ho
  obtain ⟨g, s', rfl, hg⟩ := this
  obtain ⟨c, rfl⟩ := isApp_iff.mp hg
  exact ⟨c, s', rfl⟩

theorem lib_prims (C : NodeConfig) (n : Node) (sendOk : Bool) (hb : Base C n) : Prims C n (n.lib C sendOk) := by
  unfold lib
  split
  · next h => exact .one (.callData n _ _ _ _ h)
  · next h => exact .one (.drop n _ _ h rfl (by simp))
  · next h => exact .one (.callNack n _ _ _ _ h)
  · next h => exact .one (.drop n _ _ h rfl (by simp))
  · next h =>
    split
    · next hd =>
      split
      · next ht => exact .one (.timer n _ _ _ _ h hd ht)
      · exact .one (.drop n _ _ h rfl (by simp))
    · exact .one (.drop n _ _ h rfl (by simp))
  · next h => exact .one (.callFilter n _ _ _ _ h)
  · next h => exact .one (.drop n _ _ h rfl (by simp))
  · next s h =>
    split
    · next a hq =>
      obtain ⟨c, s', hs⟩ := app_stack hb h rfl (by simp)
      exact finish_helper_prims C _ n a sendOk (fun o ho => .one (.runQueue n a o _ h hq ho))
        ⟨_, _, h, .inr ⟨.inl rfl, _, _, hs, rfl⟩⟩
    · next hq => exact .one (.queueDone n _ h hq)
  · next h => exact .one (.setComplete n _ h)
  · exact .refl n

theorem extract_stack {n n' : Node} {p : Nat → Except Err Bool} {taken : List Nat} {b : Bool} (h : n.extract p = (n', taken, b)) :
    n'.stack = n.stack := by
  rw [(extract_eq h).2]

theorem send_prims (C : NodeConfig) (n : Node) (w : Bytes) (sendOk : Bool) :
    (n.send w sendOk).1.stack = n.stack ∧ Prims C n (n.send w sendOk).1 := by
  unfold send
  split
  · exact ⟨rfl, .refl n⟩
  · next hw => exact ⟨rfl, .one (.note n _ (.inl ⟨w, rfl, by omega⟩))⟩

theorem finish_prims (C : NodeConfig) (n : Node) (r : Node × Bool) (h : Prims C n r.1)
    (hs : r.2 = true → ∃ c s, r.1.stack = .app c :: s) : Prims C n (finish r) := by
  unfold finish
  split
  · next hr =>
    obtain ⟨c, s, hc⟩ := hs hr
    exact h.trans (unwind_prims C _ ⟨_, _, hc, .inl rfl⟩)
  · exact h

theorem lost_prims (C : NodeConfig) {n n' : Node} {p : Nat → Except Err Bool} {taken : List Nat} (hx : n.extract p = (n', taken, true)) :
    Prims C n (n'.emit .matchRaised) := by
  refine .head (.note n .matchRaised (.inr (.inr (.inl rfl)))) (.one (.takeLost _ p _ taken ?_ (List.mem_append_right _ (List.mem_singleton.mpr rfl))))
  obtain ⟨h1, h2⟩ := extract_eq hx
  unfold extract
  have e : (n.emit .matchRaised).pit = n.pit := rfl
  rw [e]
  generalize extractRev p n.pit.reverse = x at h1 h2
  obtain ⟨k, t, b⟩ := x
  cases h1
  dsimp only
  rw [foldl_markRemoved, h2]
  rfl

theorem satisfy_prims (C : NodeConfig) (n : Node) (d : RxData) (ha : ∃ c s, n.stack = .app c :: s) :
    Prims C n (n.satisfy d).1 ∧ ((n.satisfy d).2.1 = true → (n.satisfy d).1.stack = n.stack) ∧
    ((n.satisfy d).2 = (false, false) → Prims C n (n.satisfy d).1.pop ∧ (n.satisfy d).1.pop.stack = n.stack) := by
  unfold satisfy
  split
  · next n' t hx => exact ⟨lost_prims C hx, fun _ => (extract_stack hx :), fun h => by simp at h⟩
  · next n' t hx =>
    have h1 := Prim.takeData (C := C) n d n' t ha hx
    refine ⟨.one h1, fun h => by simp at h, fun h => ?_⟩
    simp only [Prod.mk.injEq, true_and, Bool.not_eq_false', List.isEmpty_iff] at h
    subst h
    exact ⟨.head h1 (.one (.drop _ (.deliver d []) n'.stack rfl rfl (by simp))), extract_stack hx⟩

theorem step_prims (C : NodeConfig) (n : Node) (a : Action) (hb : Base C n) : Prims C n (n.step C a) := by
  unfold step
  split
  · next c s hst =>
    have hap : ∃ c s, n.stack = .app c :: s := ⟨c, s, hst⟩
    cases a with
    | lib b => exact .refl n
    | ret =>
      dsimp only
      split
      · exact .refl n
      · next hc => exact .one (.drop n _ _ hst rfl (by simpa using hc))
    | raise =>
      dsimp only
      cases c with
      | main => exact .refl n
      | guarded => exact .one (.drop n _ _ hst rfl (by simp))
      | unguarded =>
        refine .head (.drop n _ _ hst rfl (by simp)) (unwind_prims C _ ?_)
        have hok := hst ▸ hb.stack
        obtain ⟨g, s', hs, hg⟩ := stackOk_over hok
        refine ⟨g, s', hs, ?_⟩
        rcases hg with hg | ⟨t, rfl⟩
        · exact .inl hg
        · refine .inr ⟨rfl, by simp, ?_⟩
          exact stackOk_over (hs ▸ stackOk_tail hok (by simp))
    | allocId => exact .one (.alloc n)
    | express id i ht hn rnd connectOk sendOk =>
      dsimp only
      split
      · next h =>
        refine expressArgs_prims C n _ _ _ ⟨?_, ?_⟩ hap
        · exact h
        · intro r p hi hs h'; simp [makeArgs] at h'
      · exact .refl n
    | removePendingInterest id => exact .head (.note n _ (.inr (.inl ⟨id, rfl⟩))) (.one (.removePending _ id (List.mem_append_right _ (List.mem_singleton.mpr rfl))))
    | registerPrefix id p hi hs command rnd connectOk sendOk =>
      dsimp only
      split
      · next h =>
        refine .head (.alloc n) (expressArgs_prims C _ _ _ _ ⟨?_, ?_⟩ hap)
        · exact List.mem_append_right _ (List.mem_singleton.mpr rfl)
        · intro r p hi hs h'
          simp only [makeArgs, Handler.register.injEq] at h'
          obtain ⟨rfl, _⟩ := h'
          refine ⟨List.mem_append_left _ h, ?_⟩
          have := hb.tokens _ h
          simp only [makeArgs, nextId]
          omega
      · exact .refl n
    | removeRegisteredPrefix id => exact .head (.note n _ (.inr (.inr (.inr (.inr ⟨id, rfl⟩))))) (.one (.removeRegistered _ id (List.mem_append_right _ (List.mem_singleton.mpr rfl))))
    | setInterestFilter id p regex =>
      dsimp only
      split
      · next h => exact .one (.setFilter n id p regex h)
      · exact .refl n
    | unsetInterestFilter id => exact .one (.unset n id)
    | putData d wire sendOk =>
      have put : ∀ m : Node, m.stack = n.stack → Prims C n m → Prims C n (finish (match wire with
          | .error _ => (m, true)
          | .ok w => m.send w sendOk)) := by
        intro m hm hp
        cases wire with
        | error e => exact finish_prims C n _ hp (fun _ => ⟨c, s, hm.trans hst⟩)
        | ok w =>
          have := send_prims C m w sendOk
          exact finish_prims C n _ (hp.trans this.2) (fun _ => ⟨c, s, (this.1.trans hm).trans hst⟩)
      dsimp only [putData]
      split
      · have hsat := satisfy_prims C n d hap
        split
        · next n' x hx =>
          rw [hx] at hsat
          exact finish_prims C n _ hsat.1 (fun _ => ⟨c, s, (hsat.2.1 rfl).trans hst⟩)
        · next n' hx =>
          rw [hx] at hsat
          exact finish_prims C n _ hsat.1 (fun h => by simp at h)
        · next n' hx =>
          rw [hx] at hsat
          exact put n'.pop (hsat.2.2 rfl).2 (hsat.2.2 rfl).1
      · exact put n rfl (.refl n)
    | putNack w k sendOk =>
      dsimp only
      unfold putNack
      split
      · exact finish_prims C n _ (.refl n) (fun _ => ⟨c, s, hst⟩)
      · next w _ =>
        have := send_prims C n w sendOk
        exact finish_prims C n _ this.2 (fun _ => ⟨c, s, this.1.trans hst⟩)
    | send w sendOk =>
      have := send_prims C n w sendOk
      exact finish_prims C n _ this.2 (fun _ => ⟨c, s, this.1.trans hst⟩)
    | callLater delay => exact .one (.later n delay)
    | receive element =>
      dsimp only
      unfold onReceivedElement
      split
      · exact finish_prims C n _ (.refl n) (fun _ => hap)
      · split
        · split
          · next n' t hx => exact finish_prims C n _ (lost_prims C hx) (fun _ => ⟨c, s, (extract_stack hx).trans hst⟩)
          · next k _ _ w _ _ n' t hx => exact finish_prims C n _ (.one (.takeNack n k w n' t hap hx)) (fun h => by simp at h)
        · exact finish_prims C n _ (.refl n) (fun h => by simp at h)
      · next i _ _ =>
        rcases dispatch_prims C n i ⟨_, _, hst, .inl rfl⟩ with ⟨e, h⟩ | e
        · exact finish_prims C n _ h (fun h => by rw [e] at h; cases h)
        · rw [e]; exact finish_prims C n _ (.refl n) (fun _ => hap)
      · next d _ =>
        have hsat := satisfy_prims C n d hap
        exact finish_prims C n _ hsat.1 (fun h => ⟨c, s, (hsat.2.1 h).trans hst⟩)
      · exact finish_prims C n _ (.refl n) (fun h => by simp at h)
    | callTimedOut => exact .one (.push n (.timers n.now) ⟨_, _, hst, rfl⟩ (.inr (.inl ⟨_, rfl⟩)))
    | fireTimer k =>
      dsimp only
      split
      · next e hk =>
        split
        · next ht => exact .one (.fire n k e hap hk ht)
        · exact .refl n
      · exact .refl n
    | connected =>
      dsimp only
      split
      · refine .head (.misc n false n.loopback n.now) (.head (.note _ .connectedCalled (.inr (.inr (.inr (.inl rfl))))) (.one (.push _ .connected ⟨_, _, hst, rfl⟩ (.inr (.inr (.inl ⟨rfl, List.mem_append_right _ (List.mem_singleton.mpr rfl)⟩))))))
      · exact .refl n
    | setLoopback b => exact .one (.misc n n.connecting b n.now)
    | clock t => exact .one (.misc n n.connecting n.loopback t)
  · split
    · exact lib_prims C n _ hb
    · exact .refl n

/-! ### Induction over executions -/

theorem consume_tokens (n : Node) (a : ExpressArgs) : (n.consume a).tokens.Sublist n.tokens := by
  unfold consume
  cases a.handler with
  | app => exact List.erase_sublist
  | register r p hi hs => exact List.erase_sublist.trans List.erase_sublist

theorem callLater_frame (C : NodeConfig) (n : Node) (d : Int) (c : Delayed) :
    (n.callLater C d c).tokens = n.tokens ∧ (n.callLater C d c).lastId = n.lastId := by
  unfold callLater; dsimp only; split <;> exact ⟨rfl, rfl⟩

theorem helperCore_frame (C : NodeConfig) (n : Node) (a : ExpressArgs) (o : Outcome) :
    (n.helperCore C a o).tokens = (n.consume a).tokens ∧ (n.helperCore C a o).lastId = n.lastId := by
  unfold helperCore
  split
  · exact ⟨rfl, rfl⟩
  · unfold addEntry
    dsimp only
    split
    · exact callLater_frame C _ _ _
    · exact ⟨rfl, rfl⟩

/-- The events of registration. -/
def RegEv (e : Ev) : Prop := (∃ r, e = .registerSuccess r) ∨ (∃ r, e = .registerFailed r) ∨ ∃ f, e = .filterSet f

/-- What `registerOnData` can do. -/
theorem registerOnData_form (n : Node) (d : RxData) (regId : Nat) (p : Name) (hi hs : Bool) :
    ∃ k fs ps rr evs st, n.registerOnData d regId p hi hs = { n with lastId := n.lastId + k, filters := fs, prefixes := ps, prefixRemoveRequests := rr, trace := n.trace ++ evs, stack := st } ∧
      (∀ x ∈ evs, RegEv x) ∧ (st = n.stack ∨ st = .app .guarded :: n.stack) ∧
      (∀ f, Ev.filterSet f ∈ evs → k = 1 ∧ f = ⟨n.lastId + 1, p, none, some regId⟩) ∧
      -- nothing
      ((k = 0 ∧ fs = n.filters ∧ ps = n.prefixes ∧ rr = n.prefixRemoveRequests) ∨
      -- success, but there was a remove request
       (regId ≠ 0 ∧ regId ∈ n.prefixRemoveRequests ∧ rr = n.prefixRemoveRequests.erase regId ∧ ps = n.prefixes ∧
         ((k = 0 ∧ fs = n.filters) ∨ (k = 1 ∧ fs = (n.filters ++ [(⟨n.lastId + 1, p, none, some regId⟩ : FilterEntry)]).filter (fun f => f.id ≠ n.lastId + 1)))) ∨
      -- success
       (regId ≠ 0 ∧ regId ∉ n.prefixRemoveRequests ∧ rr = n.prefixRemoveRequests ∧
         ((k = 0 ∧ fs = n.filters ∧ ps = n.prefixes ++ [⟨regId, p, 0⟩]) ∨
          (k = 1 ∧ fs = n.filters ++ [⟨n.lastId + 1, p, none, some regId⟩] ∧ ps = n.prefixes ++ [⟨regId, p, n.lastId + 1⟩] ∧
            Ev.filterSet ⟨n.lastId + 1, p, none, some regId⟩ ∈ evs)))) := by
  have one : ∀ e : Ev, RegEv e → ∀ x ∈ [e], RegEv x := fun e he x hx => by rw [List.mem_singleton.mp hx]; exact he
  unfold registerOnData
  dsimp only
  split
  · exact ⟨0, _, _, _, _, _, rfl, one _ (.inr (.inl ⟨_, rfl⟩)), .inr rfl, by simp, .inl ⟨rfl, rfl, rfl, rfl⟩⟩
  · exact ⟨0, n.filters, n.prefixes, n.prefixRemoveRequests, [], n.stack, by simp, by simp, .inl rfl, by simp, .inl ⟨rfl, rfl, rfl, rfl⟩⟩
  · split
    · exact ⟨0, _, _, _, _, _, rfl, one _ (.inr (.inl ⟨_, rfl⟩)), .inr rfl, by simp, .inl ⟨rfl, rfl, rfl, rfl⟩⟩
    · by_cases h0 : regId ≠ 0
      · by_cases hh : hi = true
        · rw [if_pos (⟨h0, hh⟩ : regId ≠ 0 ∧ hi = true)]
          have hfs : RegEv (.filterSet (⟨n.lastId + 1, p, none, some regId⟩ : FilterEntry)) := .inr (.inr ⟨_, rfl⟩)
          dsimp only
          split
          · next hr =>
            rw [if_pos (show n.nextId.lastId > 0 from Nat.succ_pos _)]
            exact ⟨1, _, _, _, _, _, rfl, one _ hfs, .inl rfl, by simp [nextId], .inr (.inl ⟨h0, hr.2, rfl, rfl, .inr ⟨rfl, rfl⟩⟩)⟩
          · next hr =>
            have hr' : regId ∉ n.prefixRemoveRequests := fun h => hr ⟨h0, h⟩
            cases hs with
            | true =>
              rw [if_pos rfl]
              refine ⟨1, _, _, _, [.filterSet ⟨n.lastId + 1, p, none, some regId⟩, .registerSuccess regId], _, ?_, ?_, .inr rfl, by simp,
                .inr (.inr ⟨h0, hr', rfl, .inr ⟨rfl, rfl, rfl, by simp⟩⟩)⟩
              · dsimp only [push, emit]
                rw [List.append_assoc]; rfl
              · intro x hx
                rcases List.mem_cons.mp hx with rfl | hx
                · exact hfs
                · exact one _ (.inl ⟨_, rfl⟩) x hx
            | false =>
              rw [if_neg (by decide : ¬ (false = true))]
              exact ⟨1, _, _, _, _, _, rfl, one _ hfs, .inl rfl, by simp [nextId], .inr (.inr ⟨h0, hr', rfl, .inr ⟨rfl, rfl, rfl, List.mem_cons_self⟩⟩)⟩
        · rw [if_neg (fun h => hh h.2 : ¬ (regId ≠ 0 ∧ hi = true))]
          dsimp only
          by_cases hr : regId ∈ n.prefixRemoveRequests
          · rw [if_pos (⟨h0, hr⟩ : regId ≠ 0 ∧ regId ∈ n.prefixRemoveRequests), if_neg (Nat.lt_irrefl _)]
            exact ⟨0, n.filters, n.prefixes, _, [], _, by rw [List.append_nil]; rfl, by simp, .inl rfl, by simp, .inr (.inl ⟨h0, hr, rfl, rfl, .inl ⟨rfl, rfl⟩⟩)⟩
          · rw [if_neg (fun h => hr h.2 : ¬ (regId ≠ 0 ∧ regId ∈ n.prefixRemoveRequests)), if_pos h0]
            cases hs with
            | true =>
              rw [if_pos rfl]
              exact ⟨0, _, _, _, _, _, rfl, one _ (.inl ⟨_, rfl⟩), .inr rfl, by simp, .inr (.inr ⟨h0, hr, rfl, .inl ⟨rfl, rfl, rfl⟩⟩)⟩
            | false =>
              rw [if_neg (by decide : ¬ (false = true))]
              exact ⟨0, n.filters, _, n.prefixRemoveRequests, [], _, by rw [List.append_nil]; rfl, by simp, .inl rfl, by simp, .inr (.inr ⟨h0, hr, rfl, .inl ⟨rfl, rfl, rfl⟩⟩)⟩
      · rw [if_neg (fun h => h0 h.1 : ¬ (regId ≠ 0 ∧ hi = true))]
        dsimp only
        rw [if_neg (fun h => h0 h.1 : ¬ (regId ≠ 0 ∧ regId ∈ n.prefixRemoveRequests)), if_neg h0]
        cases hs with
        | true =>
          rw [if_pos rfl]
          exact ⟨0, _, _, _, _, _, rfl, one _ (.inl ⟨_, rfl⟩), .inr rfl, by simp, .inl ⟨rfl, rfl, rfl, rfl⟩⟩
        | false =>
          rw [if_neg (by decide : ¬ (false = true))]
          exact ⟨0, n.filters, n.prefixes, n.prefixRemoveRequests, [], _, by rw [List.append_nil]; rfl, by simp, .inl rfl, by simp, .inl ⟨rfl, rfl, rfl, rfl⟩⟩

/-- What `callOnData` can do. -/
theorem callOnData_form (n : Node) (r : Nat) (d : RxData) :
    (n.entries[r]? = none ∧ n.callOnData r d = n) ∨
    ∃ e, n.entries[r]? = some e ∧ ∃ k fs ps rr evs st, n.callOnData r d = { n with lastId := n.lastId + k, filters := fs, prefixes := ps, prefixRemoveRequests := rr, trace := n.trace ++ [.onData e.args.id r d] ++ evs, stack := st } ∧
      (∀ x ∈ evs, RegEv x) ∧ (st = n.stack ∨ st = .app .guarded :: n.stack) ∧
      ((k = 0 ∧ fs.Sublist n.filters) ∨ ∃ p regId, k = 1 ∧ fs.Sublist (n.filters ++ [⟨n.lastId + 1, p, none, some regId⟩])) := by
  unfold callOnData
  split
  · next h => exact .inl ⟨h, rfl⟩
  · next e he =>
    refine .inr ⟨e, he, ?_⟩
    dsimp only
    split
    · exact ⟨0, n.filters, n.prefixes, n.prefixRemoveRequests, [], _, by rw [List.append_nil]; rfl, by simp, .inr rfl, .inl ⟨rfl, List.Sublist.refl _⟩⟩
    · next regId p hi hs _ =>
      obtain ⟨k, fs, ps, rr, evs, st, h1, h2, h3, _, h4⟩ := registerOnData_form (n.emit (.onData e.args.id r d)) d regId p hi hs
      refine ⟨k, fs, ps, rr, evs, st, h1, h2, h3, ?_⟩
      rcases h4 with ⟨h4, h5, _⟩ | ⟨_, _, _, _, ⟨h4, h5⟩ | ⟨h4, h5⟩⟩ | ⟨_, _, _, ⟨h4, h5, _⟩ | ⟨h4, h5, _⟩⟩
      · exact .inl ⟨h4, by rw [h5]; exact List.Sublist.refl _⟩
      · exact .inl ⟨h4, by rw [h5]; exact List.Sublist.refl _⟩
      · exact .inr ⟨p, regId, h4, by rw [h5]; exact List.filter_sublist⟩
      · exact .inl ⟨h4, by rw [h5]; exact List.Sublist.refl _⟩
      · exact .inr ⟨p, regId, h4, by rw [h5]; exact List.Sublist.refl _⟩

theorem callOnData_frame (n : Node) (r : Nat) (d : RxData) : (n.callOnData r d).tokens = n.tokens ∧
    n.lastId ≤ (n.callOnData r d).lastId ∧
    ((n.callOnData r d).stack = n.stack ∨ (n.callOnData r d).stack = .app .guarded :: n.stack) := by
  rcases callOnData_form n r d with ⟨_, h⟩ | ⟨e, _, k, fs, ps, rr, evs, st, h, _, h3, _⟩
  · rw [h]; exact ⟨rfl, Nat.le_refl _, .inl rfl⟩
  · rw [h]; exact ⟨rfl, Nat.le_add_right _ _, h3⟩

theorem runDelayed_frame (n : Node) (e : DelayedEntry) (now : Int) : (n.runDelayed e now).tokens = n.tokens ∧
    (n.runDelayed e now).lastId = n.lastId ∧
    ((n.runDelayed e now).stack = n.stack ∨ (n.runDelayed e now).stack = .app .guarded :: n.stack ∨
     (e.call = .app ∧ (n.runDelayed e now).stack = .app .unguarded :: n.stack)) := by
  unfold runDelayed
  dsimp only
  split
  · unfold processTimeout
    split
    · exact ⟨rfl, rfl, .inl rfl⟩
    · split
      · exact ⟨rfl, rfl, .inl rfl⟩
      · split
        · exact ⟨rfl, rfl, .inl rfl⟩
        · dsimp only
          split
          · split
            · exact ⟨rfl, rfl, .inr (.inl rfl)⟩
            · exact ⟨rfl, rfl, .inr (.inl rfl)⟩
          · exact ⟨rfl, rfl, .inl rfl⟩
  · next h => exact ⟨rfl, rfl, .inr (.inr ⟨h, rfl⟩)⟩

theorem base_prim {C : NodeConfig} {n n' : Node} (h : Prim C n n') (hb : Base C n) : Base C n' := by
  obtain ⟨hs, ht⟩ := hb
  cases h with
  | misc => exact ⟨hs, ht⟩
  | push f ho hf => exact ⟨stackOk_cons ho hs, ht⟩
  | drop f s h hd hm => exact ⟨stackOk_tail (h ▸ hs) hm, ht⟩
  | setComplete s h => exact ⟨stackOk_tail (h ▸ hs) (by simp), ht⟩
  | callData d r rest s h =>
    rw [h] at hs
    have hs' : StackOk (.deliver d rest :: s) := stackOk_cons (f := .deliver d rest) (show over (.deliver d rest) s from (stackOk_over hs :)) (stackOk_tail hs (by simp))
    have f := callOnData_frame { n with stack := .deliver d rest :: s } r d
    refine ⟨?_, ?_⟩
    · rcases f.2.2 with e | e <;> rw [e]
      · exact hs'
      · exact stackOk_cons (by simp [over]) hs'
    · rw [f.1]; exact fun t h' => Nat.le_trans (ht t h') f.2.1
  | callNack k r rest s h =>
    rw [h] at hs
    have hs' : StackOk (.nack k rest :: s) := stackOk_cons (f := .nack k rest) (show over (.nack k rest) s from (stackOk_over hs :)) (stackOk_tail hs (by simp))
    exact ⟨stackOk_cons (by simp [over, emit]) hs', ht⟩
  | callFilter i f rest s h =>
    rw [h] at hs
    have hs' : StackOk (.dispatch i rest :: s) := stackOk_cons (f := .dispatch i rest) (show over (.dispatch i rest) s from (stackOk_over hs :)) (stackOk_tail hs (by simp))
    exact ⟨stackOk_cons (by simp [over, emit]) hs', ht⟩
  | takeData d n' taken ha hx =>
    obtain ⟨c, s, ha⟩ := ha
    rw [(extract_eq hx).2]
    exact ⟨stackOk_cons ⟨_, _, ha, rfl⟩ hs, ht⟩
  | takeNack k w n' taken ha hx =>
    obtain ⟨c, s, ha⟩ := ha
    rw [(extract_eq hx).2]
    exact ⟨stackOk_cons ⟨_, _, ha, rfl⟩ hs, ht⟩
  | takeLost p n' taken hx =>
    rw [(extract_eq hx).2]
    exact ⟨hs, ht⟩
  | timer now e es s h hd hle =>
    have f := runDelayed_frame { n with delayed := es } e now
    refine ⟨?_, ?_⟩
    · rcases f.2.2 with e | e | ⟨_, e⟩ <;> rw [e]
      · exact hs
      · exact stackOk_cons (by simp [over, h]) hs
      · exact stackOk_cons ⟨_, _, h, .inr ⟨_, rfl⟩⟩ hs
    · rw [f.1, f.2.1]; exact ht
  | fire k e ha hk hle =>
    obtain ⟨c, s, ha⟩ := ha
    have f := runDelayed_frame { n with loopTimers := n.loopTimers.eraseIdx k } e n.now
    refine ⟨?_, ?_⟩
    · rcases f.2.2 with e | e | ⟨_, e⟩ <;> rw [e]
      · exact hs
      · exact stackOk_cons (by simp [over, ha]) hs
      · exact stackOk_cons ⟨_, _, ha, .inl rfl⟩ hs
    · rw [f.1, f.2.1]; exact ht
  | alloc =>
    refine ⟨hs, ?_⟩
    intro t h
    rcases List.mem_append.mp h with h | h
    · exact Nat.le_succ_of_le (ht t h)
    · rw [List.mem_singleton.mp h]; exact Nat.le_refl _
  | exprDirect a o htk hst ho =>
    have f := helperCore_frame C (n.emit (.called a.id)) a o
    refine ⟨by rw [helperCore_stack]; exact hs, ?_⟩
    rw [f.1, f.2]
    exact fun t h => ht t ((consume_tokens _ a).subset h)
  | exprQueue a c htk hst ha => exact ⟨hs, fun t h => ht t ((consume_tokens _ a).subset h)⟩
  | exprFail a htk ha => exact ⟨hs, fun t h => ht t ((consume_tokens _ a).subset h)⟩
  | runQueue a o s h hq ho =>
    have f := helperCore_frame C { n with next := n.next + 1 } a o
    refine ⟨by rw [helperCore_stack]; exact hs, ?_⟩
    rw [f.1, f.2]
    exact fun t h => ht t ((consume_tokens _ a).subset h)
  | queueDone s h hq => exact ⟨stackOk_tail (h ▸ hs) (by simp), ht⟩
  | removePending id => rw [removePending_eq]; exact ⟨hs, ht⟩
  | removeRegistered id => rw [removeRegistered_eq]; exact ⟨hs, ht⟩
  | setFilter id p r htk => exact ⟨hs, fun t h => ht t (List.erase_subset h)⟩
  | unset id => exact ⟨hs, ht⟩
  | dispatch i fs hm ho => exact ⟨stackOk_cons ho hs, ht⟩
  | later d =>
    have f := callLater_frame C n d .app
    exact ⟨by rw [callLater_stack]; exact hs, by rw [f.1, f.2]; exact ht⟩
  | note e he => exact ⟨hs, ht⟩

theorem base_init (C : NodeConfig) : Base C {} := ⟨rfl, by simp⟩

/-- A property that every primitive change preserves is preserved by executions. -/
theorem run_preserves {C : NodeConfig} {P : Node → Prop} (hP : ∀ n n', Base C n → Prim C n n' → P n → P n')
    (as : List Action) : ∀ {n : Node}, Base C n → P n → Base C (n.run C as) ∧ P (n.run C as) := by
  have prims : ∀ {a b : Node}, Prims C a b → Base C a → P a → Base C b ∧ P b := by
    intro a b h
    induction h with
    | refl => exact fun x y => ⟨x, y⟩
    | head h _ ih => exact fun x y => ih (base_prim h x) (hP _ _ x h y)
  induction as with
  | nil => exact fun x y => ⟨x, y⟩
  | cons a as ih =>
    intro n hb hp
    obtain ⟨hb', hp'⟩ := prims (step_prims C n a hb) hb hp
    exact ih hb' hp'

theorem reachable_base {C : NodeConfig} {n : Node} (h : Reachable C n) : Base C n := by
  obtain ⟨as, rfl⟩ := h
  exact (run_preserves (P := fun _ => True) (fun _ _ _ _ _ => trivial) as (base_init C) trivial).1

/-- An invariant of the reachable states. -/
theorem reachable_induction {C : NodeConfig} {P : Node → Prop} (h0 : P {})
    (hP : ∀ n n', Base C n → Prim C n n' → P n → P n') {n : Node} (h : Reachable C n) : P n := by
  obtain ⟨as, rfl⟩ := h
  exact (run_preserves hP as (base_init C) h0).2

theorem reachable_run {C : NodeConfig} {n : Node} (h : Reachable C n) (as : List Action) : Reachable C (n.run C as) := by
  obtain ⟨bs, rfl⟩ := h
  refine ⟨bs ++ as, ?_⟩
  generalize ({} : Node) = m
  induction bs generalizing m with
  | nil => rfl
  | cons b bs ih => exact ih _

end Node
end PyNDN
