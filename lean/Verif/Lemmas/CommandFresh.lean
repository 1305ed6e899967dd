import Verif.Lemmas.Command
/-
Where the records of the command Interest policy come from, and that the policy changes nothing else.
-/
namespace PyNDN.Validator
open PyNDN PyNDN.Spec.Validator

/-! ### Every record comes from a command that was accepted -/

theorem done_mono {V : Cfg} {y y' : Sys} (h : y.trace ⊆ y'.trace) {id : Nat} {kl : Name} {ts : Nat}
    (hd : Done V y id kl ts) : Done V y' id kl ts := by
  obtain ⟨h1, p, h2, h3⟩ := hd
  exact ⟨h h1, p, h h2, h3⟩

structure RP (V : Cfg) (y : Sys) : Prop where
  pend : ∀ q ∈ y.pending, q.session.record = recOf V q.session.packet
  frames : ∀ f ∈ y.frames, ∀ kl ts, f.record = some (kl, ts) → Done V y f.id kl ts
  recs : ∀ r ∈ y.records, ∃ id, Done V y id r.keyName r.timestamp

theorem rp_sub {V : Cfg} {y y' : Sys} (h : RP V y) (h1 : y'.records ⊆ y.records) (h2 : y'.pending ⊆ y.pending)
    (h3 : ∀ f ∈ y'.frames, f ∈ y.frames ∨ f.record = none) (h4 : y.trace ⊆ y'.trace) : RP V y' := by
  refine ⟨fun q hq => h.pend q (h2 hq), ?_, ?_⟩
  · intro f hf kl ts hr
    rcases h3 f hf with h5 | h5
    · exact done_mono h4 (h.frames f h5 kl ts hr)
    · rw [h5] at hr; cases hr
  · intro r hr
    obtain ⟨id, hd⟩ := h.recs r (h1 hr)
    exact ⟨id, done_mono h4 hd⟩

theorem rp_emit {V : Cfg} {y : Sys} (h : RP V y) (e : Ev) : RP V (y.emit e) :=
  rp_sub h (fun _ h => h) (fun _ h => h) (fun _ h => .inl h) (sub_emit _ _)

theorem rp_fail {V : Cfg} {y : Sys} (h : RP V y) (id : Nat) (async : Bool) (e : VErr) (cache : List SData) :
    RP V (y.fail id async e cache) := by
  refine rp_sub h (fun _ h => h) (fun _ h => h) ?_ (sub_emit _ _)
  intro f hf
  rcases List.mem_append.1 hf with hf | hf
  · exact .inl hf
  · cases List.mem_singleton.1 hf
    exact .inr rfl

theorem rp_conclude {V : Cfg} {y : Sys} {id : Nat} {p : Packet} {rec : Option (Name × Nat)} (h : RP V y)
    (hc : Ev.called id p ∈ y.trace) (async ok : Bool) (r : Int) (out : Out) (ho : OutRec rec p out)
    (hrec : (∀ s c, out = .success s c → recOf V p = rec) ∧ (∀ s c, out = .fetch s c → recOf V p = rec)) :
    RP V (y.conclude V id async ok r out) := by
  cases out with
  | success s c =>
    have h1 := hrec.1 s c rfl
    refine ⟨h.pend, ?_, ?_⟩
    · intro f hf kl ts hr
      rcases List.mem_append.1 hf with hf | hf
      · exact done_mono (sub_emit _ _) (h.frames f hf kl ts hr)
      · cases List.mem_singleton.1 hf
        refine ⟨by simp [Sys.conclude, Sys.emit], p, sub_emit _ _ hc, ?_⟩
        rw [h1, ← ho.1]
        exact hr
    · intro q hq
      obtain ⟨i, hd⟩ := h.recs q hq
      exact ⟨i, done_mono (sub_emit _ _) hd⟩
  | fail s e c => exact rp_fail h _ _ _ _
  | raise s e =>
    simp only [Sys.conclude]
    split
    · exact rp_fail h _ _ _ _
    · exact rp_emit h _
  | silent s => exact rp_emit h _
  | fetch s n =>
    simp only [Sys.conclude]
    split
    · exact rp_fail h _ _ _ _
    · have h0 := rp_emit h (.express id n)
      refine ⟨?_, h0.frames, h0.recs⟩
      intro q hq
      rcases List.mem_append.1 hq with hq | hq
      · exact h.pend q hq
      · cases List.mem_singleton.1 hq
        show s.record = recOf V s.packet
        rw [ho.1, ho.2, hrec.2 s n rfl]

theorem rp_take {V : Cfg} {y : Sys} (h : RP V y) (k : Nat) (st : Stores) :
    RP V { y with pending := y.pending.eraseIdx k, st := st } :=
  rp_sub h (fun _ h => h) (List.eraseIdx_sublist _ _).subset (fun _ h => .inl h) (fun _ h => h)

theorem checkOriginal_rec' {V : Cfg} {now : Int} {rs rs' : List Record} {p : Packet}
    {res : Res (Option (Name × Nat) × Decision)} (h : checkOriginal V now rs p = (rs', res)) :
    rs' ⊆ rs ∧ ∀ rec d, res = .ok (rec, d) → recOf V p = rec := by
  cases hV : V.command with
  | some o =>
    obtain ⟨h1, h2⟩ := checkOriginal_rec hV h
    refine ⟨?_, fun rec d hr => (h2 rec d hr).1⟩
    rcases h1 with rfl | rfl
    · exact fun _ h => h
    · exact (cleanUp_sub _).subset
  | none =>
    unfold checkOriginal at h
    rw [hV] at h
    dsimp only at h
    cases h
    refine ⟨fun _ h => h, ?_⟩
    intro rec d hok
    obtain ⟨d'', _, h2⟩ := res_bind_ok hok
    cases h2
    unfold recOf
    rw [hV]

theorem rp_validate {V : Cfg} {y : Sys} (h : RP V y) (p : Packet) (ok : Bool) : RP V (y.validate V p ok) := by
  unfold Sys.validate
  dsimp only
  cases hco : checkOriginal V y.now y.records p with
  | mk rs res =>
    have hco' : checkOriginal V ({ y.emit (.called y.next p) with next := y.next + 1 } : Sys).now
        ({ y.emit (.called y.next p) with next := y.next + 1 } : Sys).records p = (rs, res) := hco
    rw [hco']
    dsimp only
    obtain ⟨hsub, hrec⟩ := checkOriginal_rec' hco
    have hbase : ∀ st, RP V { y.emit (.called y.next p) with next := y.next + 1, records := rs, st := st } :=
      fun st => rp_sub h hsub (fun _ h => h) (fun _ h => .inl h) (sub_emit _ _)
    have hcall : ∀ st, Ev.called y.next p ∈
        ({ y.emit (.called y.next p) with next := y.next + 1, records := rs, st := st } : Sys).trace := by
      intro st; simp [Sys.emit]
    split
    · exact rp_conclude (p := p) (rec := none) (hbase y.st) (hcall _) _ _ _ _ trivial
        ⟨(fun _ _ h => by cases h), (fun _ _ h => by cases h)⟩
    · exact rp_conclude (p := p) (rec := none) (hbase y.st) (hcall _) _ _ _ _ trivial
        ⟨(fun _ _ h => by cases h), (fun _ _ h => by cases h)⟩
    · rename_i rec
      have h1 := hrec _ _ rfl
      exact rp_conclude (p := p) (rec := rec) (hbase y.st) (hcall _) _ _ _ _ ⟨rfl, rfl⟩
        ⟨fun _ _ _ => h1, fun _ _ _ => h1⟩
    · exact rp_conclude (p := p) (rec := none) (hbase y.st) (hcall _) _ _ _ _ trivial
        ⟨(fun _ _ h => by cases h), (fun _ _ h => by cases h)⟩
    · rename_i rec n
      have h1 := hrec _ _ rfl
      have hout := requestCertificate_rec (V := V) (now := y.now) _ y.st { packet := p, record := rec } n
        (Nat.le_refl _)
      exact rp_conclude (p := p) (rec := rec) (hbase _) (hcall _) _ _ _ _ hout
        ⟨fun _ _ _ => h1, fun _ _ _ => h1⟩

theorem rp_resume {V : Cfg} {y : Sys} (h : RP V y) (k : Nat) : RP V (y.resume k) := by
  unfold Sys.resume
  split
  · exact h
  · rename_i f hk
    have hf := List.mem_of_getElem? hk
    have hrec : RP V ({ y with frames := y.frames.eraseIdx k }.addRecord f.record) := by
      have h0 : RP V { y with frames := y.frames.eraseIdx k } :=
        rp_sub h (fun _ h => h) (fun _ h => h) (fun g hg => .inl ((List.eraseIdx_sublist _ _).subset hg))
          (fun _ h => h)
      cases hr : f.record with
      | none => exact h0
      | some x =>
        obtain ⟨kl, ts⟩ := x
        refine ⟨h0.pend, h0.frames, ?_⟩
        intro r hm
        simp only [Sys.addRecord, insertRecord] at hm
        rcases List.mem_append.1 hm with hm | hm
        · exact h0.recs r ((popRecord_sub _).subset hm)
        · cases List.mem_singleton.1 hm
          exact ⟨f.id, h.frames f hf kl ts hr⟩
    dsimp only
    generalize ({ y with frames := y.frames.eraseIdx k } : Sys).addRecord f.record = z at hrec
    have hraise : ∀ (z : Sys) (e : Err), RP V z →
        RP V (if f.async then z.fail f.id true .cannotRetrieve [] else z.emit (.raised f.id e)) := by
      intro z e hz
      split
      · exact rp_fail hz _ _ _ _
      · exact rp_emit hz _
    split
    · exact hraise z _ hrec
    · have hz : RP V { z with
          outcomes := (f.id, f.outcome) :: z.outcomes
          st := { z.st with verified := (cacheAll z.now z.st.verified f.cache).1 } } :=
        rp_sub hrec (fun _ h => h) (fun _ h => h) (fun _ h => .inl h) (fun _ h => h)
      split
      · exact hz
      · exact hraise _ _ hz

theorem rp_step {V : Cfg} {y : Sys} (hi : Inv V y) (h : RP V y) (e : Event) : RP V (step V y e) := by
  have hst : ∀ st, RP V { y with st := st } := fun st =>
    rp_sub h (fun _ h => h) (fun _ h => h) (fun _ h => .inl h) (fun _ h => h)
  have htr : ∀ c st, RP V { y.emit (.trusted c) with st := st } := fun c st =>
    rp_sub h (fun _ h => h) (fun _ h => h) (fun _ h => .inl h) (sub_emit _ _)
  cases e with
  | validate p ok => exact rp_validate h p ok
  | data k d ok =>
    simp only [step, Sys.onData]
    split
    · exact h
    · rename_i q hk
      split
      · have hr := h.pend q (List.mem_of_getElem? hk)
        exact rp_conclude (p := q.session.packet) (rec := q.session.record) (rp_take h k _)
          (hi.pend q (List.mem_of_getElem? hk)).1 _ _ _ _ onCertificate_rec
          ⟨fun _ _ _ => hr.symm, fun _ _ _ => hr.symm⟩
      · exact h
  | timeout k ok =>
    simp only [step, Sys.onTimeout]
    split
    · exact h
    · rename_i q hk
      have hr := h.pend q (List.mem_of_getElem? hk)
      exact rp_conclude (p := q.session.packet) (rec := q.session.record) (rp_take h k _)
        (hi.pend q (List.mem_of_getElem? hk)).1 _ _ _ _ refetch_rec
        ⟨fun _ _ _ => hr.symm, fun _ _ _ => hr.symm⟩
  | resume k => exact rp_resume h k
  | loadAnchor g c => exact htr c _
  | removeAnchor g n => exact hst _
  | fileAdded c =>
    simp only [step]
    split
    · exact h
    · exact htr c _
  | fileRemoved n => exact hst _
  | resetAnchors => exact hst _
  | cacheVerified c =>
    simp only [step]
    split
    · exact h
    · exact htr c _
  | cacheUnverified c =>
    simp only [step]
    split
    · exact h
    · exact hst _
  | resetVerified => exact hst _
  | clock t => exact rp_sub h (fun _ h => h) (fun _ h => h) (fun _ h => .inl h) (sub_emit _ _)

theorem rp_run {V : Cfg} : ∀ (es : List Event) {y : Sys}, Inv V y → RP V y → RP V (run V y es)
  | [], _, _, h => h
  | e :: es, _, hi, h => rp_run es (inv_step hi e) (rp_step hi h e)

theorem rp_init (V : Cfg) (t : Int) : RP V (init t) :=
  ⟨(fun q hq => by cases hq), (fun q hq => by cases hq), (fun q hq => by cases hq)⟩

/-! ### The policy changes nothing else -/

/-- Forget the record. -/
def Session.bare (s : Session) : Session := { s with record := none }
def Out.bare : Out → Out
  | .success s c => .success s.bare c
  | .fail s e c => .fail s.bare e c
  | .fetch s n => .fetch s.bare n
  | .raise s e => .raise s.bare e
  | .silent s => .silent s.bare

/-- The validator without the command policy. -/
def Cfg.bare (V : Cfg) : Cfg := { V with command := none }

theorem verifyData_bare (V : Cfg) : verifyData V.bare = verifyData V := rfl
theorem verifyPacket_bare (V : Cfg) : verifyPacket V.bare = verifyPacket V := rfl

theorem verifyChain_bare (V : Cfg) : ∀ (cs : List SData) (t : SData) (i : Nat),
    verifyChain V.bare t cs i = verifyChain V t cs i
  | [], _, _ => rfl
  | c :: cs, t, i => by
    unfold verifyChain
    rw [verifyData_bare]
    split
    · rfl
    · rfl
    · exact verifyChain_bare V cs c (i + 1)

theorem verifyAll_bare (V : Cfg) (s : Session) (t : SData) : verifyAll V.bare s.bare t = (verifyAll V s t).bare := by
  unfold verifyAll
  rw [verifyChain_bare, verifyPacket_bare]
  simp only [Session.bare]
  split
  · rfl
  · rfl
  · split <;> rfl

theorem requestCertificate_bare (V : Cfg) (now : Int) : ∀ (n : Nat) (st : Stores) (s : Session) (name : Name),
    V.maxDepth - s.chain.length ≤ n → requestCertificate V.bare now st s.bare name =
      ((requestCertificate V now st s name).1, (requestCertificate V now st s name).2.bare) := by
  have hreq : V.bare.request = V.request := rfl
  have hcp : certificatePolicy V.bare now = certificatePolicy V now := rfl
  intro n
  induction n with
  | zero =>
    intro st s name h
    unfold requestCertificate
    rw [if_pos (by omega : V.maxDepth ≤ s.chain.length), if_pos (by show V.maxDepth ≤ s.chain.length; omega)]
    rfl
  | succ n ih =>
    intro st s name h
    unfold requestCertificate
    by_cases h1 : V.maxDepth ≤ s.chain.length
    · rw [if_pos h1, if_pos (show V.bare.maxDepth ≤ s.bare.chain.length from h1)]; rfl
    rw [if_neg h1, if_neg (show ¬ V.bare.maxDepth ≤ s.bare.chain.length from h1)]
    by_cases h2 : (s.seen.any fun n => n.equals name) = true
    · rw [if_pos h2, if_pos (show (s.bare.seen.any fun n => n.equals name) = true from h2)]; rfl
    rw [if_neg h2, if_neg (show ¬ (s.bare.seen.any fun n => n.equals name) = true from h2), hreq, hcp]
    dsimp only
    cases h3 : st.findTrusted now (V.request name) with
    | mk st' r =>
      rcases r with e | (_ | c)
      · rfl
      · dsimp only
        cases h4 : st'.unverified.find now (V.request name) with
        | mk u r =>
          rcases r with e | (_ | c)
          · rfl
          · rfl
          · dsimp only
            cases h5 : certificatePolicy V now c with
            | raise e => rfl
            | fail e => rfl
            | ok d =>
              cases d with
              | bypass => rfl
              | silent => rfl
              | request name' =>
                exact ih { st' with unverified := u } { s with chain := c :: s.chain, seen := name :: s.seen }
                  name' (by simp; omega)
      · dsimp only
        exact congrArg _ (verifyAll_bare V { s with seen := name :: s.seen } c)

theorem conclude_bare (V : Cfg) (y y' : Sys) (id : Nat) (async ok : Bool) (r : Int) (out : Out)
    (h : y'.trace = y.trace) :
    (y'.conclude V.bare id async ok r out.bare).trace = (y.conclude V id async ok r out).trace := by
  have ho : V.bare.offline = V.offline := rfl
  cases out with
  | success s c => simp only [Out.bare, Sys.conclude, Sys.emit, h]
  | fail s e c => simp only [Out.bare, Sys.conclude, Sys.fail, Sys.emit, h]
  | raise s e =>
    simp only [Out.bare, Sys.conclude]
    split <;> simp only [Sys.fail, Sys.emit, h]
  | silent s => simp only [Out.bare, Sys.conclude, Sys.emit, h]
  | fetch s n =>
    simp only [Out.bare, Sys.conclude, ho]
    split <;> simp only [Sys.fail, Sys.emit, h]

/-- If the command policy lets a packet pass, the validation goes on as without it. -/
theorem validate_bare (V : Cfg) (y : Sys) (p : Packet) (ok : Bool) (rec : Option (Name × Nat))
    (h : (checkOriginal V y.now y.records p).2 = (do return (rec, ← V.policy.check p))) :
    (y.validate V p ok).trace = (y.validate V.bare p ok).trace := by
  have hb : checkOriginal V.bare y.now y.records p = (y.records, do return (none, ← V.policy.check p)) := by
    unfold checkOriginal
    rfl
  cases hco : checkOriginal V y.now y.records p with
  | mk rs res =>
    rw [hco] at h
    dsimp only at h
    subst h
    unfold Sys.validate
    dsimp only
    have e1 : checkOriginal V ({ y.emit (.called y.next p) with next := y.next + 1 } : Sys).now
        ({ y.emit (.called y.next p) with next := y.next + 1 } : Sys).records p = _ := hco
    have e2 : checkOriginal V.bare ({ y.emit (.called y.next p) with next := y.next + 1 } : Sys).now
        ({ y.emit (.called y.next p) with next := y.next + 1 } : Sys).records p = _ := hb
    rw [e1, e2]
    dsimp only
    cases hc : V.policy.check p with
    | fail e => exact (conclude_bare V _ _ _ _ _ _ (.fail { packet := p } e []) rfl).symm
    | raise e => exact (conclude_bare V _ _ _ _ _ _ (.raise { packet := p } e) rfl).symm
    | ok d =>
      cases d with
      | bypass => exact (conclude_bare V _ _ _ _ _ _ (.success { packet := p, record := rec } []) rfl).symm
      | silent => exact (conclude_bare V _ _ _ _ _ _ (.silent { packet := p, record := rec }) rfl).symm
      | request n =>
        simp only [bind, Res.bind, pure]
        have := requestCertificate_bare V y.now _ y.st { packet := p, record := rec } n (Nat.le_refl _)
        simp only [Session.bare] at this
        show _ = (Sys.conclude V.bare _ _ _ _ _ (requestCertificate V.bare y.now y.st _ _).2).trace
        rw [this]
        refine (conclude_bare V _ _ _ _ _ _ _ ?_).symm
        rfl

end PyNDN.Validator
