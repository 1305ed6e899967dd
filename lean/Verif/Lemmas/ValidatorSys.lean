import Verif.Lemmas.Validator
/-
The invariant of the validator system.
-/
namespace PyNDN.Validator
open PyNDN PyNDN.Spec.Validator

/-- The certificates that a frame will cache. -/
def Cacheable (V : Cfg) (tr : List Ev) (c : SData) : Prop :=
  Trusted V tr c ∧ checkFormat c = .ok () ∧ ∃ t, InPeriod c t

theorem Cacheable.mono {V : Cfg} {tr tr' : List Ev} (hs : tr ⊆ tr') {c : SData}
    (h : Cacheable V tr c) : Cacheable V tr' c := ⟨Trusted.mono hs h.1, h.2⟩

/-- 1 for the calls that have been made. -/
def opened (next id : Nat) : Nat := if id < next then 1 else 0

/-- The invariant, where `hand` is the call whose continuation is being executed. -/
structure InvH (V : Cfg) (y : Sys) (hand : Nat → Nat) : Prop where
  now : Ev.clock y.now ∈ y.trace
  store : StoreInv V y.trace y.st
  calls : ∀ id p, Ev.called id p ∈ y.trace → id < y.next
  uniq : ∀ id p q, Ev.called id p ∈ y.trace → Ev.called id q ∈ y.trace → p = q
  pend : ∀ p ∈ y.pending, Ev.called p.id p.session.packet ∈ y.trace ∧
    Linked V y.trace p.session.packet p.session.chain p.name ∧
    p.session.chain.length < V.maxDepth ∧ 0 ≤ p.retriesLeft ∧ p.retriesLeft ≤ 3 ∧
    (sends p.id y.trace : Int) ≤ 4 * p.session.chain.length + (4 - p.retriesLeft)
  frames : ∀ f ∈ y.frames, ∀ c ∈ f.cache, Cacheable V y.trace c
  succ : ∀ id, Ev.success id ∈ y.trace → ∃ p, Ev.called id p ∈ y.trace ∧
    (V.policy.check p = .ok .bypass ∨ Justified V y.trace p)
  acc : ∀ id, ends id y.trace + y.pending.countP (fun p => p.id == id) + hand id =
    opened y.next id
  cb : ∀ id, y.frames.countP (fun f => f.id == id) + y.outcomes.countP (fun o => o.1 == id) ≤
    y.trace.countP (isCallback id)
  send : ∀ id, sends id y.trace ≤ 4 * V.maxDepth
  send0 : ∀ id, y.next ≤ id → sends id y.trace = 0

abbrev Inv (V : Cfg) (y : Sys) : Prop := InvH V y (fun _ => 0)

/-- The token of one call. -/
def single (id : Nat) : Nat → Nat := fun j => if id = j then 1 else 0

theorem isCallback_isEnd {id : Nat} {e : Ev} (h : isCallback id e = true) : isEnd id e = true := by
  cases e <;> simp_all [isCallback, isEnd]

theorem callbacks_le_ends (id : Nat) (tr : List Ev) : tr.countP (isCallback id) ≤ ends id tr :=
  List.countP_mono_left fun _ _ h => isCallback_isEnd h

theorem ends_append (id : Nat) (tr : List Ev) (e : Ev) :
    ends id (tr ++ [e]) = ends id tr + if isEnd id e then 1 else 0 := by
  simp [ends, List.countP_append, List.countP_cons]

theorem sends_append (id : Nat) (tr : List Ev) (e : Ev) :
    sends id (tr ++ [e]) = sends id tr + if isSend id e then 1 else 0 := by
  simp [sends, List.countP_append, List.countP_cons]

theorem sub_emit (tr : List Ev) (e : Ev) : tr ⊆ tr ++ [e] := List.subset_append_left _ _

/-- Emit an event that is not a call, a success, nor a send, and adjust the token and the frames. -/
theorem inv_end {V : Cfg} {y : Sys} {id : Nat} {p : Packet} (h : InvH V y (single id)) {e : Ev}
    (hcall : Ev.called id p ∈ y.trace)
    (he : ∀ j, isEnd j e = (id == j)) (hc : ∀ i q, e ≠ .called i q)
    (hs : ∀ i, e = .success i → i = id ∧ (V.policy.check p = .ok .bypass ∨ Justified V y.trace p))
    (hsend : ∀ j, isSend j e = false) (fs : List Frame)
    (hfs : fs = [] ∨ ∃ f, fs = [f] ∧ f.id = id ∧ (∀ j, isCallback j e = (id == j)) ∧
      ∀ c ∈ f.cache, Cacheable V y.trace c) :
    Inv V { y.emit e with frames := y.frames ++ fs } := by
  have sub := sub_emit y.trace e
  constructor <;> dsimp only [Sys.emit]
  · exact sub h.now
  · exact h.store.mono sub
  · intro i q hi
    rcases List.mem_append.1 hi with hi | hi
    · exact h.calls i q hi
    · exact absurd (List.mem_singleton.1 hi).symm (hc i q)
  · intro i q r hi hr
    rcases List.mem_append.1 hi with hi | hi
    · rcases List.mem_append.1 hr with hr | hr
      · exact h.uniq i q r hi hr
      · exact absurd (List.mem_singleton.1 hr).symm (hc i r)
    · exact absurd (List.mem_singleton.1 hi).symm (hc i q)
  · intro q hq
    obtain ⟨h1, h2, h3, h4, h5, h6⟩ := h.pend q hq
    refine ⟨sub h1, h2.mono sub, h3, h4, h5, ?_⟩
    rw [sends_append, hsend]
    simpa using h6
  · intro f hf c hc'
    rcases List.mem_append.1 hf with hf | hf
    · exact (h.frames f hf c hc').mono sub
    · rcases hfs with rfl | ⟨g, rfl, _, _, hg⟩
      · cases hf
      · rw [List.mem_singleton.1 hf] at hc'
        exact (hg c hc').mono sub
  · intro i hi
    rcases List.mem_append.1 hi with hi | hi
    · obtain ⟨q, h1, h2⟩ := h.succ i hi
      exact ⟨q, sub h1, h2.imp (fun h => h) (fun h => Justified.mono sub h)⟩
    · obtain ⟨rfl, h2⟩ := hs i (List.mem_singleton.1 hi).symm
      exact ⟨p, sub hcall, h2.imp (fun h => h) (fun h => Justified.mono sub h)⟩
  · intro j
    have := h.acc j
    rw [ends_append, he]
    unfold single at this
    by_cases hj : id = j
    · simp only [hj, beq_self_eq_true, if_true] at this ⊢; omega
    · simp only [hj, beq_eq_false_iff_ne.2 hj, if_false] at this ⊢; simpa using this
  · intro j
    have := h.cb j
    rw [List.countP_append, List.countP_append]
    rcases hfs with rfl | ⟨g, rfl, hgi, hcb, _⟩
    · simp; omega
    · simp only [List.countP_cons, List.countP_nil, hcb, hgi]
      omega
  · intro j
    rw [sends_append, hsend]
    simpa using h.send j
  · intro j hj
    rw [sends_append, hsend]
    simpa using h.send0 j hj

theorem inv_fail {V : Cfg} {y : Sys} {id : Nat} {p : Packet} (h : InvH V y (single id))
    (hcall : Ev.called id p ∈ y.trace) (async : Bool) (e : VErr) (cache : List SData)
    (hc : ∀ c ∈ cache, Cacheable V y.trace c) : Inv V (y.fail id async e cache) := by
  unfold Sys.fail
  refine inv_end h hcall (e := .failure id e) (fun j => rfl) (fun i q => by simp) (fun i hi => by cases hi)
    (fun j => rfl) _ (.inr ⟨_, rfl, rfl, fun j => rfl, hc⟩)

theorem emit_frames (y : Sys) (e : Ev) : y.emit e = { y.emit e with frames := y.frames ++ [] } := by
  simp [Sys.emit]

theorem inv_conclude {V : Cfg} {y : Sys} {id : Nat} {p : Packet} {d : Nat} {A : List SData}
    {now : Int} (h : InvH V y (single id))
    (hcall : Ev.called id p ∈ y.trace) (async ok : Bool) (retries : Int) (out : Out)
    (ho : OutInv V y.trace A now p d out)
    (hr : ∀ s n, out = .fetch s n → 0 ≤ retries ∧ retries ≤ 3 ∧
      (sends id y.trace : Int) + 1 ≤ 4 * s.chain.length + (4 - retries)) :
    Inv V (y.conclude V id async ok retries out) := by
  cases out with
  | success s cache =>
    obtain ⟨h1, h2, h3⟩ := ho
    replace h2 : V.policy.check p = .ok .bypass ∨ Justified V y.trace p :=
      h2.imp (fun h => h) fun ⟨_, _, _, h4, _, h5⟩ => chain_justified h4 h5
    refine inv_end h hcall (e := .success id) (fun j => rfl) (fun i q => by simp)
      (fun i hi => by cases hi; exact ⟨rfl, h2⟩) (fun j => rfl) _ (.inr ⟨_, rfl, rfl, fun j => rfl, h3⟩)
  | fail s e cache => exact inv_fail h hcall async e cache ho
  | raise s e =>
    simp only [Sys.conclude]
    split
    · exact inv_fail h hcall _ _ _ (fun c hc => by cases hc)
    · rw [emit_frames]
      exact inv_end h hcall (e := .raised id e) (fun j => rfl) (fun i q => by simp)
        (fun i hi => by cases hi) (fun j => rfl) [] (.inl rfl)
  | silent s =>
    simp only [Sys.conclude]
    rw [emit_frames]
    exact inv_end h hcall (e := .silent id) (fun j => rfl) (fun i q => by simp)
      (fun i hi => by cases hi) (fun j => rfl) [] (.inl rfl)
  | fetch s n =>
    simp only [Sys.conclude]
    split
    · exact inv_fail h hcall _ _ _ (fun c hc => by cases hc)
    · obtain ⟨h1, h2, h3, h4⟩ := ho
      obtain ⟨r1, r2, r3⟩ := hr s n rfl
      have sub := sub_emit y.trace (.express id n)
      have hlt : id < y.next := h.calls id p hcall
      constructor <;> dsimp only [Sys.emit]
      · exact sub h.now
      · exact h.store.mono sub
      · intro i q hi
        rcases List.mem_append.1 hi with hi | hi
        · exact h.calls i q hi
        · cases List.mem_singleton.1 hi
      · intro i q r hi hr
        rcases List.mem_append.1 hi with hi | hi
        · rcases List.mem_append.1 hr with hr | hr
          · exact h.uniq i q r hi hr
          · cases List.mem_singleton.1 hr
        · cases List.mem_singleton.1 hi
      · intro q hq
        rcases List.mem_append.1 hq with hq | hq
        · obtain ⟨g1, g2, g3, g4, g5, g6⟩ := h.pend q hq
          refine ⟨sub g1, g2.mono sub, g3, g4, g5, ?_⟩
          have hne : id ≠ q.id := by
            intro heq
            have := h.acc id
            have hp : 0 < y.pending.countP (fun p => p.id == id) :=
              List.countP_pos_iff.2 ⟨q, hq, by simp [heq]⟩
            simp only [single, opened, hlt, if_true] at this
            omega
          rw [sends_append]
          simpa [isSend, hne] using g6
        · rw [List.mem_singleton.1 hq]
          refine ⟨sub (by rw [h1]; exact hcall), ?_, h3, r1, r2, ?_⟩
          · dsimp only; rw [h1]; exact h2.mono sub
          · rw [sends_append]
            simp only [isSend, beq_self_eq_true, if_true]
            push_cast
            omega
      · intro f hf c hc'
        exact (h.frames f hf c hc').mono sub
      · intro i hi
        rcases List.mem_append.1 hi with hi | hi
        · obtain ⟨q, h1, h2⟩ := h.succ i hi
          exact ⟨q, sub h1, h2.imp (fun h => h) (fun h => Justified.mono sub h)⟩
        · cases List.mem_singleton.1 hi
      · intro j
        have := h.acc j
        rw [ends_append, List.countP_append]
        unfold single at this
        by_cases hj : id = j
        · simp only [hj, isEnd, List.countP_cons, List.countP_nil, beq_self_eq_true, if_true] at this ⊢
          simp; omega
        · simp only [hj, isEnd, List.countP_cons, List.countP_nil, beq_eq_false_iff_ne.2 hj, if_false]
            at this ⊢
          simpa using this
      · intro j
        rw [List.countP_append]
        have := h.cb j
        omega
      · intro j
        rw [sends_append]
        by_cases hj : id = j
        · subst hj
          simp only [isSend, beq_self_eq_true, if_true]
          omega
        · simpa [isSend, hj] using h.send j
      · intro j hj
        rw [sends_append]
        have hne : id ≠ j := by omega
        simpa [isSend, hne] using h.send0 j hj

/-- Only the stores change. -/
theorem inv_store {V : Cfg} {y : Sys} {hand} (h : InvH V y hand) {st : Stores}
    (hs : StoreInv V y.trace st) : InvH V { y with st := st } hand :=
  ⟨h.now, hs, h.calls, h.uniq, h.pend, h.frames, h.succ, h.acc, h.cb, h.send, h.send0⟩

/-- Only the records change. -/
theorem inv_records {V : Cfg} {y : Sys} {hand} (h : InvH V y hand) (rs : List Record) :
    InvH V { y with records := rs } hand :=
  ⟨h.now, h.store, h.calls, h.uniq, h.pend, h.frames, h.succ, h.acc, h.cb, h.send, h.send0⟩

/-- Emit an event about trust or time. -/
theorem inv_note {V : Cfg} {y : Sys} (h : Inv V y) {e : Ev}
    (he : (∃ c, e = .trusted c) ∨ ∃ t, e = .clock t) : Inv V (y.emit e) := by
  have sub := sub_emit y.trace e
  have he' : (∀ j, isEnd j e = false) ∧ (∀ j, isSend j e = false) ∧ (∀ j, isCallback j e = false) ∧
      (∀ i q, Ev.called i q ≠ e) ∧ ∀ i, Ev.success i ≠ e := by
    rcases he with ⟨c, rfl⟩ | ⟨t, rfl⟩ <;> simp [isEnd, isSend, isCallback]
  obtain ⟨e1, e2, e3, e4, e5⟩ := he'
  constructor <;> dsimp only [Sys.emit]
  · exact sub h.now
  · exact h.store.mono sub
  · intro i q hi
    rcases List.mem_append.1 hi with hi | hi
    · exact h.calls i q hi
    · exact absurd (List.mem_singleton.1 hi) (e4 i q)
  · intro i q r hi hr
    rcases List.mem_append.1 hi with hi | hi
    · rcases List.mem_append.1 hr with hr | hr
      · exact h.uniq i q r hi hr
      · exact absurd (List.mem_singleton.1 hr) (e4 i r)
    · exact absurd (List.mem_singleton.1 hi) (e4 i q)
  · intro q hq
    obtain ⟨h1, h2, h3, h4, h5, h6⟩ := h.pend q hq
    refine ⟨sub h1, h2.mono sub, h3, h4, h5, ?_⟩
    rw [sends_append, e2]
    simpa using h6
  · intro f hf c hc'
    exact (h.frames f hf c hc').mono sub
  · intro i hi
    rcases List.mem_append.1 hi with hi | hi
    · obtain ⟨q, h1, h2⟩ := h.succ i hi
      exact ⟨q, sub h1, h2.imp (fun h => h) (fun h => Justified.mono sub h)⟩
    · exact absurd (List.mem_singleton.1 hi) (e5 i)
  · intro j
    rw [ends_append, e1]
    simpa using h.acc j
  · intro j
    rw [List.countP_append]
    have := h.cb j
    omega
  · intro j
    rw [sends_append, e2]
    simpa using h.send j
  · intro j hj
    rw [sends_append, e2]
    simpa using h.send0 j hj

/-! ### Steps -/

theorem res_bind_ok {α β : Type} {r : Res α} {f : α → Res β} {b : β} (h : (r >>= f) = .ok b) :
    ∃ a, r = .ok a ∧ f a = .ok b := by
  cases r with
  | ok a => exact ⟨a, rfl, h⟩
  | fail e => cases h
  | raise e => cases h

theorem checkOriginal_ok {V : Cfg} {now : Int} {rs rs' : List Record} {p : Packet}
    {rec : Option (Name × Nat)} {d : Decision} (h : checkOriginal V now rs p = (rs', .ok (rec, d))) :
    V.policy.check p = .ok d := by
  unfold checkOriginal at h
  split at h
  · split at h
    · cases h
    · cases h
    · rename_i kl ts _
      dsimp only at h
      have h2 := congrArg Prod.snd h
      obtain ⟨_, _, h3⟩ := res_bind_ok h2
      obtain ⟨d', h4, h5⟩ := res_bind_ok h3
      cases h5
      exact h4
  · have h2 := congrArg Prod.snd h
    obtain ⟨d', h4, h5⟩ := res_bind_ok h2
    cases h5
    exact h4

/-- The state in which `validate` starts to work. -/
theorem inv_called {V : Cfg} {y : Sys} (h : Inv V y) (p : Packet) (rs : List Record) :
    InvH V { y.emit (.called y.next p) with next := y.next + 1, records := rs } (single y.next) := by
  have sub := sub_emit y.trace (.called y.next p)
  constructor <;> dsimp only [Sys.emit]
  · exact sub h.now
  · exact h.store.mono sub
  · intro i q hi
    rcases List.mem_append.1 hi with hi | hi
    · have := h.calls i q hi; omega
    · cases List.mem_singleton.1 hi; omega
  · intro i q r hi hr
    rcases List.mem_append.1 hi with hi | hi
    · rcases List.mem_append.1 hr with hr | hr
      · exact h.uniq i q r hi hr
      · cases List.mem_singleton.1 hr
        have := h.calls _ q hi; omega
    · cases List.mem_singleton.1 hi
      rcases List.mem_append.1 hr with hr | hr
      · have := h.calls _ r hr; omega
      · cases List.mem_singleton.1 hr; rfl
  · intro q hq
    obtain ⟨h1, h2, h3, h4, h5, h6⟩ := h.pend q hq
    refine ⟨sub h1, h2.mono sub, h3, h4, h5, ?_⟩
    rw [sends_append]
    simpa [isSend] using h6
  · intro f hf c hc'
    exact (h.frames f hf c hc').mono sub
  · intro i hi
    rcases List.mem_append.1 hi with hi | hi
    · obtain ⟨q, h1, h2⟩ := h.succ i hi
      exact ⟨q, sub h1, h2.imp (fun h => h) (fun h => Justified.mono sub h)⟩
    · cases List.mem_singleton.1 hi
  · intro j
    have := h.acc j
    rw [ends_append]
    simp only [isEnd, Bool.false_eq_true, if_false]
    unfold opened single at *
    by_cases hj : j = y.next
    · subst hj; simp only [Nat.lt_irrefl, if_false, Nat.lt_succ_self, if_true] at this ⊢; omega
    · by_cases hlt : j < y.next
      · have h1 : j < y.next + 1 := by omega
        have h2 : ¬ y.next = j := by omega
        simp only [hlt, h1, h2, if_true, if_false] at this ⊢; omega
      · have h1 : ¬ j < y.next + 1 := by omega
        have h2 : ¬ y.next = j := by omega
        simp only [hlt, h1, h2, if_false] at this ⊢; omega
  · intro j
    rw [List.countP_append]
    have := h.cb j
    omega
  · intro j
    rw [sends_append]
    simpa [isSend] using h.send j
  · intro j hj
    rw [sends_append]
    simpa [isSend] using h.send0 j (by omega)

theorem inv_validate {V : Cfg} {y : Sys} (h : Inv V y) (p : Packet) (ok : Bool) :
    Inv V (y.validate V p ok) := by
  have hin := fun rs => inv_called h p rs
  have hcall : ∀ rs, Ev.called y.next p ∈
      ({ y.emit (.called y.next p) with next := y.next + 1, records := rs } : Sys).trace := by
    intro rs; simp [Sys.emit]
  have hsend : sends y.next (y.emit (.called y.next p)).trace = 0 := by
    simp only [Sys.emit]
    rw [sends_append, h.send0 y.next (Nat.le_refl _)]
    simp [isSend]
  unfold Sys.validate
  dsimp only
  cases hco : checkOriginal V y.now y.records p with
  | mk rs r =>
    have hco' : checkOriginal V ({ y.emit (.called y.next p) with next := y.next + 1 } : Sys).now
        ({ y.emit (.called y.next p) with next := y.next + 1 } : Sys).records p = (rs, r) := hco
    rw [hco']
    dsimp only
    split
    · exact inv_conclude (d := 0) (A := []) (now := 0) (hin rs) (hcall rs) _ _ _ _ (fun c hc => by cases hc)
        (fun s n hs => by cases hs)
    · exact inv_conclude (p := p) (d := 0) (A := []) (now := 0) (hin rs) (hcall rs) _ _ _ _ trivial (fun s n hs => by cases hs)
    · rename_i rec
      refine inv_conclude (p := p) (d := 0) (A := []) (now := 0) (hin rs) (hcall rs) _ _ _ _ ?_ (fun s n hs => by cases hs)
      exact ⟨rfl, .inl (checkOriginal_ok hco), fun c hc => by cases hc⟩
    · exact inv_conclude (p := p) (d := 0) (A := []) (now := 0) (hin rs) (hcall rs) _ _ _ _ trivial (fun s n hs => by cases hs)
    · rename_i rec n
      have hl : Linked V (y.emit (.called y.next p)).trace p [] n := checkOriginal_ok hco
      have hi := hin rs
      have hrc := requestCertificate_inv (V := V) hi.now _
        (s := { packet := p, record := rec }) (Nat.le_refl _) hi.store rfl hl
      refine inv_conclude (p := p) (d := 0) (inv_store hi hrc.1) (hcall rs) _ _ _ _ hrc.2.2 ?_
      intro s m _
      have : sends y.next (y.trace ++ [Ev.called y.next p]) = 0 := hsend
      simp only [Sys.emit]
      omega

theorem countP_eraseIdx' {α : Type} (q : α → Bool) : ∀ {l : List α} {k : Nat} {x : α}, l[k]? = some x →
    l.countP q = (l.eraseIdx k).countP q + if q x then 1 else 0
  | [], k, x, h => by simp at h
  | a :: l, 0, x, h => by
    simp at h
    subst h
    simp [List.countP_cons]
  | a :: l, k + 1, x, h => by
    simp at h
    have := countP_eraseIdx' q h
    simp only [List.eraseIdx_cons_succ, List.countP_cons]
    omega

/-- Take a pending request in hand. -/
theorem inv_take {V : Cfg} {y : Sys} (h : Inv V y) {k : Nat} {p : Pending} (hk : y.pending[k]? = some p) :
    InvH V { y with pending := y.pending.eraseIdx k } (single p.id) := by
  have hsub : ∀ q ∈ y.pending.eraseIdx k, q ∈ y.pending := fun q hq =>
    (List.eraseIdx_sublist _ _).subset hq
  refine ⟨h.now, h.store, h.calls, h.uniq, fun q hq => h.pend q (hsub q hq), h.frames, h.succ, ?_, h.cb,
    h.send, h.send0⟩
  intro j
  have := h.acc j
  dsimp only at this ⊢
  have hc : y.pending.countP (fun p => p.id == j) =
      (y.pending.eraseIdx k).countP (fun p => p.id == j) + single p.id j := by
    rw [countP_eraseIdx' _ hk]
    simp [single]
  omega

theorem onCertificate_inv {V : Cfg} {tr : List Ev} {now : Int} {A : List SData}
    (hnow : Ev.clock now ∈ tr) {st : Stores} {s : Session} {n : Name} {c : SData}
    (hst : StoreInv V tr st) (hA : st.anchors = A)
    (hl : Linked V tr s.packet s.chain n) (hm : NamedBy n c) :
    StoreInv V tr (onCertificate V now st s c).1 ∧ (onCertificate V now st s c).1.anchors = A ∧
      OutInv V tr A now s.packet (s.chain.length + 1) (onCertificate V now st s c).2 := by
  unfold onCertificate
  split
  · exact ⟨hst, hA, fun c hc => by cases hc⟩
  · rename_i u hf
    exact continueFetch_inv hnow hst hA hl (by rw [hf]) hm

theorem inv_onData {V : Cfg} {y : Sys} (h : Inv V y) (k : Nat) (d : SData) (ok : Bool) :
    Inv V (y.onData V k d ok) := by
  unfold Sys.onData
  split
  · exact h
  · rename_i p hk
    split
    · rename_i hm
      obtain ⟨g1, g2, g3, g4, g5, g6⟩ := h.pend p (List.mem_of_getElem? hk)
      have hi := inv_take h hk
      have ho := onCertificate_inv hi.now hi.store rfl g2 (matchesData_named hm)
      refine inv_conclude (p := p.session.packet) (inv_store hi ho.1) g1 _ _ _ _ ho.2.2 ?_
      intro s m hs
      have ho2 := ho.2.2
      rw [show (onCertificate V y.now y.st p.session d).2 = .fetch s m from hs] at ho2
      obtain ⟨_, _, _, hd⟩ := ho2
      dsimp only
      omega
    · exact h

theorem refetch_inv {V : Cfg} {tr : List Ev} {now : Int} {A : List SData} (hnow : Ev.clock now ∈ tr)
    {st : Stores} {s : Session} {n : Name} {r : Int} (hst : StoreInv V tr st) (hA : st.anchors = A)
    (hl : Linked V tr s.packet s.chain n) (hd : s.chain.length < V.maxDepth) :
    StoreInv V tr (refetch V now st s n r).1 ∧ (refetch V now st s n r).1.anchors = A ∧
      OutInv V tr A now s.packet s.chain.length (refetch V now st s n r).2 ∧
      ∀ s' m, (refetch V now st s n r).2 = .fetch s' m → 0 ≤ r := by
  unfold refetch
  split
  · rename_i hr
    have hsub : ∀ u q, st.unverified.find now (V.request n) = (u, q) →
        StoreInv V tr { st with unverified := u } := by
      intro u q hur
      refine ⟨hst.fresh, hst.anchors, hst.verified, hst.formatA, hst.formatV, ?_⟩
      intro e he
      have : u = st.unverified.refresh now := by
        have := congrArg Prod.fst hur; exact this.symm
      rw [this] at he
      exact hst.formatU e (refresh_subset _ _ e he)
    split
    · rename_i u e hu
      exact ⟨hsub u _ hu, hA, trivial, fun _ _ _ => hr⟩
    · rename_i u hu
      exact ⟨hsub u _ hu, hA, ⟨rfl, hl, hd, Nat.le_refl _⟩, fun _ _ _ => hr⟩
    · rename_i u c hu
      have h2 := congrArg Prod.snd hu
      obtain ⟨⟨e, he, hec⟩, hm⟩ := cache_find_some h2
      subst hec
      have := continueFetch_inv hnow (hsub u _ hu) hA hl (hst.formatU e (refresh_subset _ _ e he)) (.inl hm)
      exact ⟨this.1, this.2.1, OutInv.weaken (Nat.le_succ _) this.2.2, fun _ _ _ => hr⟩
  · exact ⟨hst, hA, (fun c hc => by cases hc), fun _ _ hh => by cases hh⟩

theorem inv_onTimeout {V : Cfg} {y : Sys} (h : Inv V y) (k : Nat) (ok : Bool) :
    Inv V (y.onTimeout V k ok) := by
  unfold Sys.onTimeout
  split
  · exact h
  · rename_i p hk
    obtain ⟨g1, g2, g3, g4, g5, g6⟩ := h.pend p (List.mem_of_getElem? hk)
    have hi := inv_take h hk
    have ho : StoreInv V y.trace (refetch V y.now y.st p.session p.name (p.retriesLeft - 1)).1 ∧ _ ∧ _ ∧ _ :=
      refetch_inv (r := p.retriesLeft - 1) hi.now hi.store rfl g2 g3
    dsimp only
    generalize refetch V y.now y.st p.session p.name (p.retriesLeft - 1) = r at ho ⊢
    obtain ⟨st, out⟩ := r
    refine inv_conclude (p := p.session.packet) (inv_store hi ho.1) g1 _ _ _ _ ho.2.2.1 ?_
    intro s m hs
    have ho2 := ho.2.2.1
    have ho3 := ho.2.2.2 s m hs
    dsimp only at hs
    subst hs
    obtain ⟨_, _, _, hd⟩ := ho2
    dsimp only
    split
    · omega
    · omega

theorem cacheAll_ok {V : Cfg} {tr : List Ev} {now : Int} {cs : List SData} :
    ∀ {v : Cache}, (∀ c ∈ cs, Cacheable V tr c) →
      (∀ e ∈ v.entries, Trusted V tr e.cert ∧ checkFormat e.cert = .ok ()) → Fresh v →
      (cacheAll now v cs).2 = none ∧ Fresh (cacheAll now v cs).1 ∧
      ∀ e ∈ (cacheAll now v cs).1.entries, Trusted V tr e.cert ∧ checkFormat e.cert = .ok () := by
  induction cs with
  | nil => exact fun _ hv hf => ⟨rfl, hf, hv⟩
  | cons c cs ih =>
    intro v hc hv hfr
    obtain ⟨ht, hf, t, hp⟩ := hc c (List.mem_cons_self ..)
    obtain ⟨nb, na, hper⟩ := inPeriod_period hp
    obtain ⟨v', hv'⟩ := insert_ok_of_period (c := v) (now := now) hper hf
    unfold cacheAll
    rw [hv']
    refine ih (fun c hc' => hc c (List.mem_cons_of_mem _ hc')) ?_ (fresh_insert hfr hv')
    rcases insert_ok hv' with rfl | ⟨_, _, _, _, _, _, he, _⟩
    · exact hv
    · intro e hm
      rcases he e hm with rfl | ⟨h1, _⟩
      · exact ⟨ht, hf⟩
      · exact hv e h1

theorem addRecord_eq (y : Sys) (r : Option (Name × Nat)) :
    ∃ rs, y.addRecord r = { y with records := rs } := by
  cases r with
  | none => exact ⟨y.records, rfl⟩
  | some x => exact ⟨_, rfl⟩

theorem inv_resume {V : Cfg} {y : Sys} (h : Inv V y) (k : Nat) : Inv V (y.resume k) := by
  unfold Sys.resume
  split
  · exact h
  · rename_i f hk
    have hmem : f ∈ y.frames := List.mem_of_getElem? hk
    have hcnt : ∀ j, y.frames.countP (fun g => g.id == j) =
        (y.frames.eraseIdx k).countP (fun g => g.id == j) + single f.id j := by
      intro j
      rw [countP_eraseIdx' _ hk]
      simp [single]
    have hone : y.outcomes.countP (fun o => o.1 == f.id) = 0 := by
      have h1 := h.cb f.id
      have h2 := h.acc f.id
      have h3 := callbacks_le_ends f.id y.trace
      have h4 := hcnt f.id
      have h5 : opened y.next f.id ≤ 1 := by unfold opened; split <;> omega
      simp only [single, if_true] at h4
      omega
    have hno : y.outcomes.any (fun o => o.1 == f.id) = false := by
      rw [Bool.eq_false_iff]
      intro hany
      obtain ⟨o, ho, hoi⟩ := List.any_eq_true.1 hany
      have : 0 < y.outcomes.countP (fun o => o.1 == f.id) := List.countP_pos_iff.2 ⟨o, ho, hoi⟩
      omega
    dsimp only
    obtain ⟨rs, hrs⟩ := addRecord_eq { y with frames := y.frames.eraseIdx k } f.record
    rw [hrs]
    rw [hno]
    simp only [Bool.false_eq_true, if_false]
    have hca := cacheAll_ok (V := V) (tr := y.trace) (now := y.now) (cs := f.cache) (v := y.st.verified)
      (h.frames f hmem) (fun e he => ⟨h.store.verified e he, h.store.formatV e he⟩) h.store.fresh
    rw [hca.1]
    dsimp only
    refine ⟨h.now, ?_, h.calls, h.uniq, h.pend, ?_, h.succ, h.acc, ?_, h.send, h.send0⟩
    · exact ⟨hca.2.1, h.store.anchors, fun e he => (hca.2.2 e he).1, h.store.formatA,
        fun e he => (hca.2.2 e he).2,
        h.store.formatU⟩
    · intro g hg
      exact h.frames g ((List.eraseIdx_sublist _ _).subset hg)
    · intro j
      have h1 := h.cb j
      have h2 := hcnt j
      rw [List.countP_cons]
      simp only [single] at h2
      by_cases hj : f.id = j
      · simp only [hj, if_true, beq_self_eq_true] at h2 ⊢; omega
      · simp only [hj, if_false, beq_eq_false_iff_ne.2 hj, Bool.false_eq_true] at h2 ⊢; omega

theorem inv_step {V : Cfg} {y : Sys} (h : Inv V y) (e : Event) : Inv V (step V y e) := by
  cases e with
  | validate p ok => exact inv_validate h p ok
  | data k d ok => exact inv_onData h k d ok
  | timeout k ok => exact inv_onTimeout h k ok
  | resume k => exact inv_resume h k
  | loadAnchor g c =>
    have hn := inv_note h (e := .trusted c) (.inl ⟨c, rfl⟩)
    have := inv_store hn (st := y.st.loadAnchor g c) ?_
    · exact this
    · unfold Stores.loadAnchor
      dsimp only
      split
      · exact hn.store
      · refine ⟨hn.store.fresh, ?_, hn.store.verified, ?_, hn.store.formatV, hn.store.formatU⟩
        · intro x hx
          dsimp only at hx
          split at hx
          · rcases mem_addAnchor hx with rfl | hx
            · simp [Sys.emit]
            · exact hn.store.anchors x hx
          · exact hn.store.anchors x hx
        · intro x hx
          dsimp only at hx
          split at hx
          · rename_i u hu
            rcases mem_addAnchor hx with rfl | hx
            · rw [hu]
            · exact hn.store.formatA x hx
          · exact hn.store.formatA x hx
  | removeAnchor g n =>
    refine inv_store h ⟨h.store.fresh, ?_, h.store.verified, ?_, h.store.formatV, h.store.formatU⟩
    · exact fun c hc => h.store.anchors c (List.mem_filter.1 hc).1
    · exact fun c hc => h.store.formatA c (List.mem_filter.1 hc).1
  | fileAdded c =>
    simp only [step]
    split
    · exact h
    · rename_i u hu
      have hn := inv_note h (e := .trusted c) (.inl ⟨c, rfl⟩)
      refine inv_store hn (st := { y.st with anchors := addAnchor c y.st.anchors }) ?_
      refine ⟨hn.store.fresh, ?_, hn.store.verified, ?_, hn.store.formatV, hn.store.formatU⟩
      · intro x hx
        rcases mem_addAnchor hx with rfl | hx
        · simp [Sys.emit]
        · exact hn.store.anchors x hx
      · intro x hx
        rcases mem_addAnchor hx with rfl | hx
        · rw [hu]
        · exact hn.store.formatA x hx
  | fileRemoved n =>
    refine inv_store h ⟨h.store.fresh, ?_, h.store.verified, ?_, h.store.formatV, h.store.formatU⟩
    · exact fun c hc => h.store.anchors c (List.mem_filter.1 hc).1
    · exact fun c hc => h.store.formatA c (List.mem_filter.1 hc).1
  | resetAnchors =>
    refine inv_store h ⟨h.store.fresh, ?_, h.store.verified, ?_, h.store.formatV, h.store.formatU⟩
    · exact fun c hc => by cases hc
    · exact fun c hc => by cases hc
  | cacheVerified c =>
    simp only [step]
    split
    · exact h
    · rename_i v hv
      have hn := inv_note h (e := .trusted c) (.inl ⟨c, rfl⟩)
      refine inv_store hn (st := { y.st with verified := v }) ?_
      refine ⟨fresh_insert hn.store.fresh hv, hn.store.anchors, ?_, hn.store.formatA, insert_formats hv hn.store.formatV,
        hn.store.formatU⟩
      intro e he
      rcases insert_ok hv with rfl | ⟨_, _, _, _, _, _, hm, _⟩
      · exact hn.store.verified e he
      · rcases hm e he with rfl | ⟨h1, _⟩
        · exact .given _ (by simp [Sys.emit])
        · exact hn.store.verified e h1
  | cacheUnverified c =>
    simp only [step]
    split
    · exact h
    · rename_i u hu
      refine inv_store h ⟨h.store.fresh, h.store.anchors, h.store.verified, h.store.formatA, h.store.formatV,
        insert_formats hu h.store.formatU⟩
  | resetVerified =>
    refine inv_store h ⟨(fun e he => by cases he), h.store.anchors, ?_, h.store.formatA, ?_, h.store.formatU⟩
    · exact fun e he => by cases he
    · exact fun e he => by cases he
  | clock t =>
    have hn := inv_note h (e := .clock t) (.inr ⟨t, rfl⟩)
    exact ⟨by simp [step, Sys.emit], hn.store, hn.calls, hn.uniq, hn.pend, hn.frames, hn.succ, hn.acc,
      hn.cb, hn.send, hn.send0⟩

theorem inv_init (V : Cfg) (t : Int) : Inv V (init t) := by
  constructor <;> simp [init, ends, sends, isEnd, isSend, opened, List.countP_cons]
  constructor <;> simp [Fresh]

theorem inv_run {V : Cfg} (es : List Event) : ∀ {y : Sys}, Inv V y → Inv V (run V y es) := by
  induction es with
  | nil => exact fun h => h
  | cons e es ih => exact fun h => ih (inv_step h e)

theorem inv_reachable (V : Cfg) (t : Int) (es : List Event) : Inv V (run V (init t) es) :=
  inv_run es (inv_init V t)

end PyNDN.Validator
