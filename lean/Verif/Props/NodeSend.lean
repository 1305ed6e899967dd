import Verif.Props.NodeExamples
import Verif.Props.Control
/-
C47: what is passed to the transport.
-/
open PyNDN.Spec
namespace PyNDN
namespace Node

/-- What holds of the events that pass bytes to the transport. -/
def SendEv (args : List ExpressArgs) : Ev → Prop
  | .sentRaw w => w.length ≤ 8800
  | .helper id (.sent w) => w.length ≤ 8800 ∧ ∃ a ∈ args, a.id = id ∧ a.wire = .ok w
  | _ => True

theorem sendEv_mono {l l' : List ExpressArgs} (h : l <+: l') {e : Ev} (he : SendEv l e) : SendEv l' e := by
  unfold SendEv at *
  split at he
  · exact he
  · obtain ⟨h1, a, h2, h3⟩ := he
    exact ⟨h1, a, h.subset h2, h3⟩
  · trivial

theorem prim_sends {C : NodeConfig} {n n' : Node} (h : Prim C n n') : ∃ evs, n'.trace = n.trace ++ evs ∧ ∀ e ∈ evs, SendEv n'.args e := by
  have same : ∀ m : Node, m.trace = n.trace → ∃ evs, m.trace = n.trace ++ evs ∧ ∀ e ∈ evs, SendEv m.args e := fun m h => ⟨[], by rw [h, List.append_nil], by simp⟩
  have one : ∀ (l : List ExpressArgs) (e : Ev), SendEv l e → ∀ x ∈ [e], SendEv l x := fun l e he x hx => by rw [List.mem_singleton.mp hx]; exact he
  have reg : ∀ (l : List ExpressArgs) (evs : List Ev), (∀ x ∈ evs, RegEv x) → ∀ x ∈ evs, SendEv l x := by
    intro l evs h x hx
    rcases h x hx with ⟨r, rfl⟩ | ⟨r, rfl⟩ | ⟨f, rfl⟩ <;> trivial
  have run : ∀ (m : Node) (e : DelayedEntry) (now : Int), m.trace = n.trace → ∃ evs, (m.runDelayed e now).trace = n.trace ++ evs ∧ ∀ x ∈ evs, SendEv (m.runDelayed e now).args x := by
    intro m e now h2
    rcases runDelayed_form m e now with ⟨_, e'⟩ | ⟨r, _, _, e'⟩ | ⟨r, x, _, hx, hr, hp, ⟨_, e'⟩ | ⟨_, evs, hevs, e'⟩⟩
    · rw [e']; exact ⟨_, by rw [← h2], one _ (.ran e.seq now) trivial⟩
    · rw [e']; exact ⟨_, by rw [← h2], one _ (.ran e.seq now) trivial⟩
    · rw [e']; exact ⟨_, by rw [← h2], one _ (.ran e.seq now) trivial⟩
    · rw [e']
      refine ⟨[.ran e.seq now, .onTimeout x.args.id r] ++ evs, by rw [← h2]; simp, ?_⟩
      intro y hy
      rcases List.mem_append.mp hy with hy | hy
      · simp at hy; rcases hy with rfl | rfl <;> trivial
      · exact reg _ _ hevs y hy
  have helper : ∀ (m : Node) (a : ExpressArgs) (o : Outcome) (evs : List Ev), m.trace = n.trace ++ evs → (∀ l, ∀ x ∈ evs, SendEv l x) → SentOk a o →
      ∃ evs, (m.helperCore C a o).trace = n.trace ++ evs ∧ ∀ x ∈ evs, SendEv (m.helperCore C a o).args x := by
    intro m a o evs h2 h3 hso
    rcases helperCore_form C m a o with ⟨ho, e⟩ | ⟨ho, sq, dl, lt, evs', e, hevs⟩
    · rw [e]
      refine ⟨evs ++ [.helper a.id o], by dsimp only; rw [h2]; simp, ?_⟩
      intro x hx
      rcases List.mem_append.mp hx with hx | hx
      · exact h3 _ x hx
      · subst ho
        exact one _ (.helper a.id .removed) trivial x hx
    · rw [e]
      refine ⟨evs ++ evs' ++ [.helper a.id o], by dsimp only; rw [h2]; simp, ?_⟩
      intro x hx
      rcases List.mem_append.mp hx with hx | hx
      · rcases List.mem_append.mp hx with hx | hx
        · exact h3 _ x hx
        · rcases hevs with rfl | ⟨k, t, rfl⟩
          · simp at hx
          · exact one _ (.scheduled k t) trivial x hx
      · refine one _ (.helper a.id o) ?_ x hx
        cases o with
        | sent w =>
          obtain ⟨s1, s2⟩ := hso w rfl
          exact ⟨s2, a, by simp [args], rfl, s1⟩
        | _ => trivial
  cases h with
  | misc => exact same _ rfl
  | push f ho hf => exact same _ rfl
  | drop f s h hd hm => exact same _ rfl
  | setComplete s h => exact same _ rfl
  | callData d r rest s h =>
    rcases callOnData_form { n with stack := .deliver d rest :: s } r d with ⟨hn, e⟩ | ⟨x, hx, k, fs, ps, rr, evs, st, e, hevs, hst, _⟩
    · rw [e]; exact same _ rfl
    · rw [e]
      refine ⟨.onData x.args.id r d :: evs, by simp, ?_⟩
      intro y hy
      rcases List.mem_cons.mp hy with rfl | hy
      · trivial
      · exact reg _ _ hevs y hy
  | callNack k r rest s h => exact ⟨[_], rfl, one _ _ trivial⟩
  | callFilter i f rest s h => exact ⟨[_], rfl, one _ _ trivial⟩
  | takeData d n' taken ha hx => rw [(extract_eq hx).2]; exact same _ rfl
  | takeNack k w n' taken ha hx => rw [(extract_eq hx).2]; exact same _ rfl
  | takeLost p n' taken hx => rw [(extract_eq hx).2]; exact same _ rfl
  | timer now e es s h hd hle => exact run _ e now rfl
  | fire k e ha hk hle => exact run _ e _ rfl
  | alloc => exact same _ rfl
  | exprDirect a o htk hst ho => exact helper _ a o [.called a.id] rfl (fun l => one l (.called a.id) trivial) ho.2
  | exprQueue a c htk hst ha => exact ⟨[.called a.id], rfl, one _ (.called a.id) trivial⟩
  | exprFail a htk ha => exact ⟨[.called a.id], rfl, one _ (.called a.id) trivial⟩
  | runQueue a o s h hq ho => exact helper _ a o [] (by simp) (by simp) ho.2
  | queueDone s h hq => exact same _ rfl
  | removePending id => rw [removePending_eq]; exact same _ rfl
  | removeRegistered id => rw [removeRegistered_eq]; exact same _ rfl
  | setFilter id p r htk => exact ⟨[_], rfl, one _ _ trivial⟩
  | unset id => exact same _ rfl
  | dispatch i fs hm ho => exact same _ rfl
  | later d =>
    obtain ⟨dl, lt, e, _⟩ := callLater_form C n d .app
    rw [e]
    exact ⟨[_], rfl, one _ (.scheduled n.seq (n.now + d)) trivial⟩
  | note e he =>
    refine ⟨[e], rfl, one _ e ?_⟩
    rcases he with ⟨w, rfl, hw⟩ | ⟨i, rfl⟩ | rfl | rfl | ⟨j, rfl⟩ <;> first | exact hw | trivial

theorem reachable_sends {C : NodeConfig} {n : Node} (h : Reachable C n) : ∀ e ∈ n.trace, SendEv n.args e :=
  reachable_induction' (P := fun n => ∀ e ∈ n.trace, SendEv n.args e) (fun e he => by cases he)
    (fun n n' _ ht hp => by
      obtain ⟨evs, h1, h2⟩ := prim_sends ht
      intro e he
      rw [h1] at he
      rcases List.mem_append.mp he with he | he
      · exact sendEv_mono (prim_args ht) (hp e he)
      · exact h2 e he) h

/-- What was passed to the transport, in order. -/
def sentWires (t : List Ev) : List Bytes :=
  t.filterMap (fun e => match e with | .sentRaw w => some w | .helper _ (.sent w) => some w | _ => none)

/-- C47: nothing longer than the maximum packet size, 8800 bytes, is ever passed to the transport. -/
theorem C47_size (C : NodeConfig) (as : List Action) : ∀ w ∈ sentWires (run C {} as).trace, w.length ≤ 8800 := by
  intro w hw
  have h := reachable_sends (C := C) ⟨as, rfl⟩
  obtain ⟨e, he, hx⟩ := List.mem_filterMap.mp hw
  have := h e he
  split at hx
  · cases hx; exact this
  · cases hx; exact this.1
  · cases hx

/-- C47: what is sent for an Interest is the encoding of the Interest that was expressed with that id. -/
theorem C47_interest (C : NodeConfig) (as : List Action) {id : Nat} {w : Bytes} (h : .helper id (.sent w) ∈ (run C {} as).trace) :
    ∃ e ∈ (run C {} as).entries, e.args.id = id ∧ e.args.wire = .ok w := by
  obtain ⟨_, a, h1, h2⟩ := reachable_sends (C := C) ⟨as, rfl⟩ _ h
  obtain ⟨e, he, rfl⟩ := List.mem_map.mp h1
  exact ⟨e, he, h2⟩

/-- C47: without loopback, `putData` passes exactly the encoding to the transport, and nothing if it is too long, if the packet cannot be encoded, or if the
transport raises. -/
theorem C47_putData {C : NodeConfig} {n : Node} (ha : n.appRuns) (hl : n.loopback = false) (d : RxData) (wire : Except Err Bytes) (ok : Bool) :
    (n.step C (.putData d wire ok)).trace = n.trace ++ (match wire with | .ok w => if w.length ≤ 8800 ∧ ok = true then [.sentRaw w] else [] | .error _ => []) ∧
    (n.step C (.putData d wire ok)).pending = n.pending := by
  obtain ⟨c, s, hst⟩ := ha
  unfold step
  rw [hst]
  dsimp only
  unfold putData
  rw [hl]
  dsimp only
  rw [if_neg (by simp)]
  cases wire with
  | error e => exact ⟨by simp [finish, unwind], rfl⟩
  | ok w =>
    dsimp only
    unfold send
    by_cases hw : w.length ≤ 8800 ∧ ok = true
    · rw [if_pos hw, if_neg (by unfold maxNdnPacketSize; rw [hw.2]; simp; exact hw.1)]
      exact ⟨rfl, rfl⟩
    · rw [if_neg hw, if_pos (by unfold maxNdnPacketSize; by_cases h : w.length ≤ 8800; · right; intro h2; exact hw ⟨h, h2⟩
                                · left; omega)]
      exact ⟨by simp [finish, unwind], rfl⟩

/-- C47: with loopback, `putData` first looks for pending Interests that match; if there are any it does not send the packet (they get it, see
`C29_loopback_partial`), and otherwise it sends it. -/
theorem C47_loopback_partial {C : NodeConfig} {n : Node} (hr : Reachable C n) (ha : n.appRuns) (hl : n.loopback = true) (d : RxData) (wire : Except Err Bytes) (ok : Bool)
    (hok : ∀ e ∈ n.pending, ∃ b, e.args.interest.matchesData d.name d.full d.info = .ok b) :
    (n.step C (.putData d wire ok)).trace = n.trace ++
      (if ∃ e ∈ n.pending, matchesData d e then []
       else match wire with | .ok w => if w.length ≤ 8800 ∧ ok = true then [.sentRaw w] else [] | .error _ => []) := by
  obtain ⟨c, s, hst⟩ := ha
  by_cases hm : ∃ e ∈ n.pending, matchesData d e
  · rw [if_pos hm, List.append_nil]
    exact (C29_loopback_partial hr ⟨c, s, hst⟩ hl hm hok).trace
  · rw [if_neg hm]
    obtain ⟨n', taken, h1, h0, _⟩ := satisfy_delivering hr hok
    have ht : taken = [] := h0.mpr (fun e he hme => hm ⟨e, he, hme⟩)
    subst ht
    have htr : n'.trace = n.trace := by rw [(extract_eq h1).2]
    unfold step
    rw [hst]
    dsimp only
    unfold putData
    simp only [hl, if_true, satisfy, h1, List.isEmpty_nil, Bool.not_true]
    have hpop : (n'.push (.deliver d [])).pop.trace = n.trace := htr
    cases wire with
    | error e => simp [finish, unwind, hpop]
    | ok w =>
      dsimp only
      unfold send
      by_cases hw : w.length ≤ 8800 ∧ ok = true
      · rw [if_pos hw, if_neg (by unfold maxNdnPacketSize; rw [hw.2]; simp; exact hw.1)]
        show (n'.push (.deliver d [])).pop.trace ++ _ = _
        rw [hpop]
      · rw [if_neg hw, if_pos (by unfold maxNdnPacketSize; by_cases h : w.length ≤ 8800; · right; intro h2; exact hw ⟨h, h2⟩
                                  · left; omega)]
        simp [finish, unwind, hpop]

/-- C47: `putNack` for an Interest passes one link-layer packet to the transport, with the reason and the encoding of the Interest, if it is not too long. -/
theorem C47_putNack {C : NodeConfig} {n : Node} (ha : n.appRuns) {wire : Bytes} {k : NetworkNack} {code : Nat} (hk : NackOk k) (hc : nackCode k = some code) (ok : Bool) :
    let w := tlv 100 (tlv 800 (tlv 801 (nonNeg code)) ++ tlv 80 wire)
    (n.step C (.putNack (.ok wire) k ok)).trace = n.trace ++ (if w.length ≤ 8800 ∧ ok = true then [.sentRaw w] else []) := by
  obtain ⟨c, s, hst⟩ := ha
  obtain ⟨w, code', h1, h2, h3, _⟩ := C26_nack wire k hk []
  rw [hc] at h1
  cases h1
  dsimp only
  rw [← h3]
  unfold step
  rw [hst]
  dsimp only
  unfold putNack
  have : (Except.ok wire >>= fun w => encodeLpNack w k : Except Err Bytes) = .ok w := h2
  rw [this]
  dsimp only
  unfold send
  by_cases hw : w.length ≤ 8800 ∧ ok = true
  · rw [if_pos hw, if_neg (by unfold maxNdnPacketSize; rw [hw.2]; simp; exact hw.1)]
    rfl
  · rw [if_neg hw, if_pos (by unfold maxNdnPacketSize; by_cases h : w.length ≤ 8800; · right; intro h2; exact hw ⟨h, h2⟩
                              · left; omega)]
    simp [finish, unwind]

/-- C45, C47: what `putNack` sends for an Interest makes the node that receives it call `onNetworkNack`, with the same reason, for exactly the pending Interests that
have the callback and that encoding. -/
theorem C45_putNack {C : NodeConfig} {n : Node} (hr : Reachable C n) (ha : n.appRuns) {wire : Bytes} {i : Interest} {k : NetworkNack} (hk : NackOk k)
    (hi : decodeFragment C wire = .ok (.interest i wire)) {sender : Node} {ok : Bool} {w : Bytes} (hs : sender.appRuns)
    (hw : (sender.step C (.putNack (.ok wire) k ok)).trace = sender.trace ++ [.sentRaw w])
    (hok : ∀ e ∈ n.pending, e.args.hasOnNack = true → ∃ w, e.args.wire = .ok w) :
    let k' : NetworkNack := ⟨k.reason, if k.reason = 0x7fff then k.otherReasonCode else -1⟩
    let n' := n.step C (.receive w)
    n'.pending = n.pending.filter (fun e => ¬ matchesNack wire e) ∧ n'.trace = n.trace ∧
    ∀ as, (n'.run C as).stack.length ≤ n.stack.length → ∃ new, (n'.run C as).trace = n.trace ++ new ∧
      ((n.pending.filter (fun e => matchesNack wire e)).reverse.map (·.args.id)).Sublist (nackCalls k' new) := by
  obtain ⟨x, code, h1, h2, h3, h4⟩ := C26_nack wire k hk []
  have hp := C47_putNack (C := C) hs (wire := wire) hk h1 ok
  rw [hw] at hp
  have hp := List.append_cancel_left hp
  rw [← h3] at hp
  split at hp
  · next hlen =>
    cases hp
    obtain ⟨lp, h5, h6, h7, _⟩ := h4 (by have := hlen.1; omega)
    rw [List.append_nil] at h5
    refine C45_nack hr ha ?_ hok (i := i)
    have hb : ∃ l, w = 100 :: l := by
      rw [h3]
      unfold tlv
      exact ⟨_, rfl⟩
    obtain ⟨l, hl⟩ := hb
    unfold decodeElement
    rw [hl]
    dsimp only
    rw [if_pos rfl, ← hl, h5]
    show (match lp.fragment with | none => _ | some f => _) = _
    rw [h6]
    dsimp only
    rw [hi]
    show Except.ok (Received.interest i wire, lp.firstNack) = _
    rw [h7]
  · cases hp

/-! ### Examples -/

/-- A node that has received an Interest answers it with a Nack, and a packet; a packet that is too long is not sent. -/
example : sentWires (run exC {} [.putNack (.ok exInterestWire) ⟨50, -1⟩ true, .putData exData (.ok exWire) true,
    .send (List.replicate 8801 0) true, .send [1, 2] false, .send [3] true]).trace = [exNackWire, exWire, [3]] := by decide +kernel

/-- The hypotheses of `C45_putNack` hold. -/
example : decodeFragment exC exInterestWire = .ok (.interest { exInterest with nonce := some [7, 7, 7, 7] } exInterestWire) ∧
    (step exC {} (.putNack (.ok exInterestWire) ⟨50, -1⟩ true)).trace = [.sentRaw exNackWire] := by decide +kernel

end Node
end PyNDN
