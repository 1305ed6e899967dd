import Verif.Lemmas.ConsumerCount
/-
C78: the consumer.
-/
namespace PyNDN.Consumer
open EncV1 Spec.Consumer
open Encrypt (EncryptedContent encodeEncryptedContent decodeEncryptedContent)
open PSync (dictGet dictSet dictDel)

variable {P : Params} {ops : List Op} {db : List (Bytes × Bytes)} {g0 : Name} {s s' : St}

/-- C78: if onConsumeComplete is called then the Data was received and verified for the name that was given to `consume`, and the plain text is the decryption of its
content with a C-KEY that is, through verified Data and a D-KEY, from a key of the consumer. -/
theorem C78_opened (P : Params) (g0 : Name) (db : List (Bytes × Bytes)) (ops : List Op) {call : Nat} {d : Data} {plain : Bytes}
    (h : Out.complete call d plain ∈ (run P (new g0 db) ops).2.out) :
    ∃ p c cKey, Out.answered p d .verified ∈ (run P (new g0 db) ops).2.out ∧ (∃ env, Op.consume call p.name env ∈ ops) ∧ Holds d c ∧
      CKeyFrom P (Known db ops) (GroupOf g0 ops) (run P (new g0 db) ops).2.out c.keyLocator.keyName cKey ∧ Opens P c cKey plain := by
  have h0 : V P (fun e k => dictGet e db = some k ∨ ∃ m, Op.addDecryptionKey m k ∈ ops ∧ encodeName m = e) (GroupOf g0 ops)
      (fun call n => ∃ env, Op.consume call n env ∈ ops) (new g0 db) :=
    ⟨fun _ _ h => .inl h, .inl rfl, (fun _ _ h => nomatch h), (fun _ _ h => nomatch h), (fun _ h => nomatch h), (fun _ _ _ h => nomatch h)⟩
  have h1 := V.run h0 (fun call n env h => ⟨env, h⟩) (fun n k h => .inr ⟨n, h, rfl⟩) (fun g h => .inr h)
  obtain ⟨c, ck, ⟨q, k1, rfl, _, k3⟩, h2, h3, h4⟩ := h1.done _ _ _ h
  exact ⟨q, c, ck, k1, k3, h2, h3, h4⟩

theorem counted (P : Params) (g0 : Name) (db : List (Bytes × Bytes)) (ops : List Op) :
    W P (fun call => consumes call ops) (∀ op ∈ ops, NoRestart op) (run P (new g0 db) ops).2 := by
  have h0 : W P (fun _ => 0) (∀ op ∈ ops, NoRestart op) (new g0 db) :=
    ⟨List.nodup_nil, (fun _ h => nomatch h), fun _ => le_refl _, fun _ _ => rfl, fun _ => le_refl _, fun _ => le_refl _⟩
  have := W.run h0 fun h => h
  have e : (fun call => 0 + consumes call ops) = fun call => consumes call ops := by funext; omega
  rw [← e]
  exact this

/-- C78: for each call of `consume` at most one callback is called, once. -/
theorem C78_once (P : Params) (g0 : Name) (db : List (Bytes × Bytes)) (ops : List Op) (call : Nat) :
    callbacks call (run P (new g0 db) ops).2.out + open' call (run P (new g0 db) ops).2.pending ≤ consumes call ops := by
  have := (counted P g0 db ops).le call
  rw [open_tot]
  unfold ends at this
  omega

/-- C78: without a restart, for each call of `consume` either one Interest is pending, or one callback was called, or an exception was logged. -/
theorem C78_accounted (P : Params) (g0 : Name) (db : List (Bytes × Bytes)) (hr : ∀ op ∈ ops, NoRestart op) (call : Nat) :
    callbacks call (run P (new g0 db) ops).2.out + logs call (run P (new g0 db) ops).2.out + open' call (run P (new g0 db) ops).2.pending = consumes call ops := by
  have := (counted P g0 db ops).eq hr call
  rw [open_tot]
  exact this

/-- C78: at most three Interests for each call of `consume`, and each at most once more after a timeout. -/
theorem C78_requests (P : Params) (g0 : Name) (db : List (Bytes × Bytes)) (ops : List Op) (call : Nat) :
    sends false call (run P (new g0 db) ops).2.out ≤ 3 * consumes call ops ∧
    sends true call (run P (new g0 db) ops).2.out ≤ sends false call (run P (new g0 db) ops).2.out := by
  have h1 := (counted P g0 db ops).stages call
  have h2 := (counted P g0 db ops).tries call
  exact ⟨by omega, by omega⟩

/-! ### What is logged -/

theorem last_out {call : Nat} {d : Data} {c : EncryptedContent} {key : Bytes} (h : Last P call d c key s s') : ∃ o, s'.out = s.out ++ [o] ∧ ∀ c, o ≠ .logged c := by
  cases h with
  | error code => exact ⟨_, rfl, fun _ h => by cases h⟩
  | done _ => exact ⟨_, rfl, fun _ h => by cases h⟩

theorem mid_out {call : Nat} {d : Data} {c k : EncryptedContent} {key : Bytes} (h : Mid P call d c k key s s') : ∃ o, s'.out = s.out ++ [o] ∧ ∀ c, o ≠ .logged c := by
  cases h with
  | error code => exact ⟨_, rfl, fun _ h => by cases h⟩
  | got _ h =>
    obtain ⟨o, h1, h2⟩ := last_out h
    exact ⟨o, h1, h2⟩

theorem outcome_out {p : Pending} {d : Data} (h : Outcome P p.call s p.goal d s') : ∃ o, s'.out = s.out ++ [o] ∧ (Readable p d → ∀ c, o ≠ .logged c) := by
  unfold Readable
  generalize hg : p.goal = g at *
  cases h with
  | error code => exact ⟨_, rfl, fun _ _ h => by cases h⟩
  | ask1 _ => exact ⟨_, rfl, fun _ _ h => by cases h⟩
  | ask2 _ _ => exact ⟨_, rfl, fun _ _ h => by cases h⟩
  | last _ _ h =>
    obtain ⟨o, h1, h2⟩ := last_out h
    exact ⟨o, h1, fun _ => h2⟩
  | mid _ _ _ h =>
    obtain ⟨o, h1, h2⟩ := mid_out h
    exact ⟨o, h1, fun _ => h2⟩
  | first _ _ _ _ _ _ _ h =>
    obtain ⟨o, h1, h2⟩ := mid_out h
    exact ⟨o, h1, fun _ => h2⟩
  | logged2 hh hn => exact ⟨_, rfl, fun hr => absurd (dKeyNameOf_error hn) (hr _ hh)⟩
  | logged3 hw hn he =>
    refine ⟨_, rfl, fun hr => ?_⟩
    obtain ⟨v, payload, k1, k2⟩ := hr _ _ hw hn
    exact absurd k2 (he v payload k1)

theorem step_out (P : Params) (s : St) (op : Op) : ∃ l, (step P op s).2.out = s.out ++ l := by
  have ht := turn P s op
  generalize (step P op s).2 = s' at *
  cases ht with
  | same _ _ h3 _ => exact ⟨[], by rw [h3, List.append_nil]⟩
  | @move id p s0 _ _ _ _ h3 hm _ =>
    have h4 : ∃ o, s'.out = s0.out ++ [o] := by
      cases hm with
      | stop _ _ h _ => exact ⟨_, h⟩
      | ask h _ _ _ _ => rw [h]; exact ⟨_, rfl⟩
      | again h _ _ _ _ => rw [h]; exact ⟨_, rfl⟩
    obtain ⟨o, h4⟩ := h4
    rcases h3 with h3 | ⟨d, v, _, h3⟩
    · exact ⟨[o], by rw [h4, h3]⟩
    · exact ⟨[.answered p d v, o], by rw [h4, h3, List.append_assoc]; rfl⟩
  | fails _ => exact ⟨_, rfl⟩
  | starts _ => exact ⟨_, rfl⟩
  | restart _ => exact ⟨[], (List.append_nil _).symm⟩

theorem run_out (P : Params) : ∀ (ops : List Op) (s : St), ∃ l, (run P s ops).2.out = s.out ++ l
  | [], s => ⟨[], (List.append_nil _).symm⟩
  | op :: ops, s => by
    obtain ⟨l, h⟩ := step_out P s op
    obtain ⟨l', h'⟩ := run_out P ops (step P op s).2
    exact ⟨l ++ l', by show (run P (step P op s).2 ops).2.out = _; rw [h', h, List.append_assoc]⟩

theorem step_logged (P : Params) (s : St) (op : Op) (hr : ∀ p d, Out.answered p d .verified ∈ (step P op s).2.out → Readable p d) :
    ∀ c, Out.logged c ∈ (step P op s).2.out → Out.logged c ∈ s.out := by
  have hsn : ∀ {l : List Out} {o : Out} {c : Nat}, (∀ c, o ≠ .logged c) → Out.logged c ∈ l ++ [o] → Out.logged c ∈ l := by
    intro s o c h1 h2
    rcases List.mem_append.mp h2 with h2 | h2
    · exact h2
    · exact absurd (List.mem_singleton.mp h2).symm (h1 c)
  intro c hc
  cases op with
  | consume call n env =>
    have : (step P (.consume call n env) s).2 = _ := congrArg Prod.snd (send_spec (call := call) (name := n) (r := 1) (goal := .content) (again := false) (env := env) (s := s))
    rw [this] at hc
    dsimp only at hc
    split at hc <;> exact hsn (fun _ h => by cases h) hc
  | addDecryptionKey n k =>
    have : (step P (.addDecryptionKey n k) s).2.out = s.out := by
      show (addDecryptionKey P n k s).2.out = _
      unfold addDecryptionKey
      split
      · rfl
      · show (M.bind get _ s).2.out = _
        unfold M.bind get
        dsimp only
        split <;> rfl
    rw [this] at hc
    exact hc
  | deleteKey n => exact hc
  | setGroup g => exact hc
  | data id d v env =>
    cases hp : s.pending.find? fun p => p.id = id with
    | none =>
      have : (step P (.data id d v env) s).2 = s := answer_none hp
      rw [this] at hc
      exact hc
    | some p =>
      obtain ⟨s0, h0, h1⟩ := step_data (P := P) (env := env) (d := d) (v := v) hp
      have h2 : ∀ c, Out.logged c ∈ s0.out → Out.logged c ∈ s.out := fun c h => by
        rw [h0] at h
        exact hsn (fun _ h => by cases h) h
      rw [h1] at hc hr
      refine h2 c ?_
      cases v with
      | failed => exact hsn (fun _ h => by cases h) hc
      | raises => exact hsn (fun _ h => by cases h) hc
      | verified =>
        have ho := outcome P p d env s0
        obtain ⟨o, e, h3⟩ := outcome_out ho
        dsimp only at hc hr
        rw [e] at hc
        refine hsn (h3 (hr p d ?_)) hc
        rw [e, h0]
        exact List.mem_append_left _ (List.mem_append_right _ (List.mem_singleton.mpr rfl))
  | timeout id env =>
    cases hp : s.pending.find? fun p => p.id = id with
    | none =>
      have : (step P (.timeout id env) s).2 = s := answer_none hp
      rw [this] at hc
      exact hc
    | some p =>
      obtain ⟨s0, h0, h1⟩ := step_timeout (P := P) (env := env) hp
      have h2 : s0.out = s.out := by rw [h0]
      rw [h1] at hc
      rw [← h2]
      split at hc
      · split at hc <;> exact hsn (fun _ h => by cases h) hc
      · exact hsn (fun _ h => by cases h) hc
  | nack id =>
    cases hp : s.pending.find? fun p => p.id = id with
    | none =>
      have : (step P (.nack id) s).2 = s := answer_none hp
      rw [this] at hc
      exact hc
    | some p =>
      rw [step_nack hp] at hc
      exact hsn (fun _ h => by cases h) hc
  | restart g => exact hc

theorem run_logged (P : Params) : ∀ (ops : List Op) (s : St), (∀ p d, Out.answered p d .verified ∈ (run P s ops).2.out → Readable p d) →
    ∀ c, Out.logged c ∈ (run P s ops).2.out → Out.logged c ∈ s.out
  | [], _, _, _, h => h
  | op :: ops, s, hr, c, h => by
    have h1 := run_logged P ops (step P op s).2 hr c h
    refine step_logged P s op (fun p d hm => hr p d ?_) c h1
    obtain ⟨l, e⟩ := run_out P ops (step P op s).2
    show _ ∈ (run P (step P op s).2 ops).2.out
    rw [e]
    exact List.mem_append_left _ hm

/-- C78: exactly one callback is called for each call of `consume` for which no Interest is pending.  Partial: not if a verified Data for a key cannot be read
(C78_silent). -/
theorem C78_exactly_partial (P : Params) (g0 : Name) (db : List (Bytes × Bytes)) (hr : ∀ op ∈ ops, NoRestart op)
    (hd : ∀ p d, Out.answered p d .verified ∈ (run P (new g0 db) ops).2.out → Readable p d) (call : Nat) :
    callbacks call (run P (new g0 db) ops).2.out + open' call (run P (new g0 db) ops).2.pending = consumes call ops := by
  have h1 := C78_accounted P g0 db hr call
  have h2 : logs call (run P (new g0 db) ops).2.out = 0 := by
    unfold logs
    rw [List.countP_eq_zero]
    intro o ho
    cases o with
    | logged c => exact nomatch run_logged P ops _ hd c ho
    | _ => simp
  omega

/-! ### Keys that were decrypted are kept -/

/-- The C-KEY of each content that was decrypted is known. -/
structure Kept (s : St) : Prop where
  done : ∀ call d plain, Out.complete call d plain ∈ s.out → ∃ c key, Holds d c ∧ dictGet c.keyLocator.keyName s.cKeys = some key
  pend : ∀ p ∈ s.pending, match p.goal with | .content => True | .cKey d c => Holds d c | .dKey d c _ _ => Holds d c

theorem Kept.add (h : Kept s) {o : Out} (ho : ∀ c d p, o ≠ .complete c d p) (h1 : s'.out = s.out ++ [o]) (h2 : s'.cKeys = s.cKeys) (h3 : s'.pending = s.pending) : Kept s' := by
  refine ⟨?_, by rw [h3]; exact h.pend⟩
  intro call d plain hm
  rw [h1] at hm
  rw [h2]
  rcases List.mem_append.mp hm with hm | hm
  · exact h.done _ _ _ hm
  · exact absurd (List.mem_singleton.mp hm).symm (ho _ _ _)

theorem Kept.sent (h : Kept s) {p : Pending} {again : Bool} (hp : match p.goal with | .content => True | .cKey d c => Holds d c | .dKey d c _ _ => Holds d c) :
    Kept (sentS s p again) := by
  have h1 : Kept { s with out := s.out ++ [.sent p again] } := h.add (fun _ _ _ h => by cases h) rfl rfl rfl
  refine ⟨h1.done, ?_⟩
  intro q hq
  rcases List.mem_append.mp hq with hq | hq
  · exact h.pend q hq
  · rw [List.mem_singleton.mp hq]; exact hp

theorem Kept.last (h : Kept s) {call : Nat} {d : Data} {c : EncryptedContent} {key : Bytes} (hl : Last P call d c key s s') (hh : Holds d c)
    (hk : dictGet c.keyLocator.keyName s.cKeys = some key) : Kept s' := by
  cases hl with
  | error code => exact h.add (fun _ _ _ h => by cases h) rfl rfl rfl
  | done ho =>
    refine ⟨?_, h.pend⟩
    intro call' d' plain' hm
    rcases List.mem_append.mp hm with hm | hm
    · exact h.done _ _ _ hm
    · cases List.mem_singleton.mp hm
      exact ⟨c, key, hh, hk⟩

theorem Kept.mid (h : Kept s) {call : Nat} {d : Data} {c k : EncryptedContent} {key : Bytes} (hm : Mid P call d c k key s s') (hh : Holds d c) : Kept s' := by
  cases hm with
  | error code => exact h.add (fun _ _ _ h => by cases h) rfl rfl rfl
  | @got bits _ ho hl =>
    refine Kept.last (s := { s with cKeys := dictSet c.keyLocator.keyName bits s.cKeys }) ⟨?_, h.pend⟩ hl hh (by dsimp only; rw [Group.dictGet_set, if_pos rfl])
    intro call d plain hm
    obtain ⟨c', key', h1, h2⟩ := h.done _ _ _ hm
    by_cases e : c'.keyLocator.keyName = c.keyLocator.keyName
    · exact ⟨c', bits, h1, by dsimp only; rw [Group.dictGet_set, if_pos e]⟩
    · exact ⟨c', key', h1, by dsimp only; rw [Group.dictGet_set, if_neg e]; exact h2⟩

theorem Kept.outcome (h : Kept s) {p : Pending} {d : Data} (hp : match p.goal with | .content => True | .cKey d c => Holds d c | .dKey d c _ _ => Holds d c)
    (ho : Outcome P p.call s p.goal d s') : Kept s' := by
  generalize hg : p.goal = g at *
  cases ho with
  | error code => exact h.add (fun _ _ _ h => by cases h) rfl rfl rfl
  | ask1 hh => exact h.sent hh
  | last hh hk hl => exact h.last hl hh hk
  | ask2 hh hn => exact h.sent hp
  | mid hh hn hk hm => exact h.mid hm hp
  | logged2 hh hn => exact h.add (fun _ _ _ h => by cases h) rfl rfl rfl
  | @first d0 _ c0 k0 _ _ n0 _ _ _ _ bits _ hw hn hk he ho hpl hb hm =>
    exact Kept.mid (s := { s with dKeys := dictSet n0 bits s.dKeys }) ⟨h.done, h.pend⟩ hm hp
  | logged3 hw hn he => exact h.add (fun _ _ _ h => by cases h) rfl rfl rfl

theorem Kept.pop (h : Kept s) (f : Pending → Bool) : Kept { s with pending := s.pending.filter f } :=
  ⟨h.done, fun p hp => h.pend p (List.mem_of_mem_filter hp)⟩

theorem Kept.step (h : Kept s) {op : Op} (hr : NoRestart op) : Kept (step P op s).2 := by
  cases op with
  | consume call n env =>
    show Kept (sendInterest call n 1 .content false env s).2
    rw [send_spec]
    dsimp only
    split
    · exact h.add (fun _ _ _ h => by cases h) rfl rfl rfl
    · exact h.sent trivial
  | addDecryptionKey n k =>
    show Kept (addDecryptionKey P n k s).2
    unfold addDecryptionKey
    split
    · exact h
    · show Kept (M.bind get _ s).2
      unfold M.bind get
      dsimp only
      split
      · exact h
      · exact ⟨h.done, h.pend⟩
  | deleteKey n => exact ⟨h.done, h.pend⟩
  | setGroup g => exact ⟨h.done, h.pend⟩
  | data id d v env =>
    cases hp : s.pending.find? fun p => p.id = id with
    | none => show Kept (answer id _ s).2; rw [answer_none hp]; exact h
    | some p =>
      obtain ⟨s0, h0, h1⟩ := step_data (P := P) (env := env) (d := d) (v := v) hp
      have hv : Kept s0 := by
        rw [h0]
        exact (h.pop _).add (o := .answered p d v) (fun _ _ _ h => by cases h) rfl rfl rfl
      rw [h1]
      cases v with
      | failed => exact hv.add (fun _ _ _ h => by cases h) rfl rfl rfl
      | raises => exact hv.add (fun _ _ _ h => by cases h) rfl rfl rfl
      | verified => exact hv.outcome (p := p) (d := d) (h.pend p (List.mem_of_find?_eq_some hp)) (Consumer.outcome P p d env s0)
  | timeout id env =>
    cases hp : s.pending.find? fun p => p.id = id with
    | none => show Kept (answer id _ s).2; rw [answer_none hp]; exact h
    | some p =>
      obtain ⟨s0, h0, h1⟩ := step_timeout (P := P) (env := env) hp
      have hv : Kept s0 := by rw [h0]; exact h.pop _
      rw [h1]
      split
      · split
        · exact hv.add (fun _ _ _ h => by cases h) rfl rfl rfl
        · exact hv.sent (h.pend p (List.mem_of_find?_eq_some hp))
      · exact hv.add (fun _ _ _ h => by cases h) rfl rfl rfl
  | nack id =>
    cases hp : s.pending.find? fun p => p.id = id with
    | none => show Kept (answer id _ s).2; rw [answer_none hp]; exact h
    | some p =>
      rw [step_nack hp]
      exact (h.pop _).add (fun _ _ _ h => by cases h) rfl rfl rfl
  | restart g => exact absurd rfl (hr g)

theorem Kept.run : ∀ {ops : List Op} {s : St}, Kept s → (∀ op ∈ ops, NoRestart op) → Kept (run P s ops).2
  | [], _, h, _ => h
  | op :: ops, s, h, hr => Kept.run (ops := ops) (h.step (hr op (List.mem_cons_self ..))) fun o ho => hr o (List.mem_cons_of_mem _ ho)

theorem holds_unique {d : Data} {c c' : EncryptedContent} (h : Holds d c) (h' : Holds d c') : c = c' := by
  obtain ⟨w, h1, h2⟩ := h
  obtain ⟨w', h1', h2'⟩ := h'
  rw [h1] at h1'
  cases h1'
  rw [h2] at h2'
  exact Except.ok.inj h2'

/-- C78: when a content was decrypted, each later content with the same C-KEY is decrypted at once when it is verified: no Interest is expressed, and the callback is
called. -/
theorem C78_kept (P : Params) (g0 : Name) (db : List (Bytes × Bytes)) (hr : ∀ op ∈ ops, NoRestart op) {call : Nat} {d d' : Data} {plain : Bytes} {c c' : EncryptedContent}
    {p : Pending} {id : Nat} {env : Env} (h : Out.complete call d plain ∈ (run P (new g0 db) ops).2.out) (hc : Holds d c) (hc' : Holds d' c')
    (hk : c'.keyLocator.keyName = c.keyLocator.keyName) (hp : (run P (new g0 db) ops).2.pending.find? (fun p => p.id = id) = some p) (hg : p.goal = .content) :
    ∃ o, (step P (.data id d' .verified env) (run P (new g0 db) ops).2).2.out = (run P (new g0 db) ops).2.out ++ [.answered p d' .verified, o] ∧
      ((∃ code, o = .error p.call code) ∨ ∃ plain', o = .complete p.call d' plain') := by
  have hkept : Kept (run P (new g0 db) ops).2 := Kept.run ⟨(fun _ _ _ h => nomatch h), (fun _ h => nomatch h)⟩ hr
  generalize (run P (new g0 db) ops).2 = s at *
  obtain ⟨c0, key, h1, h2⟩ := hkept.done _ _ _ h
  rw [holds_unique h1 hc, ← hk] at h2
  obtain ⟨s0, h3, h4⟩ := step_data (P := P) (env := env) (d := d') (v := .verified) hp
  have h5 : caught (onVerified P p d' env) p.call s0 = caught (decrypt P p.call c' key (onComplete p.call d')) p.call s0 := by
    unfold onVerified
    rw [hg]
    dsimp only
    unfold decryptContent
    rw [decodeContent_of hc']
    dsimp only
    rw [caught_get, h3]
    dsimp only
    rw [h2]
  obtain ⟨s1, h6, h7⟩ := last_spec (P := P) (call := p.call) (d := d') (c := c') (key := key) (s := s0)
  rw [h4]
  dsimp only
  rw [h5, caught_ok h6]
  cases h7 with
  | error code => exact ⟨_, by show s0.out ++ [_] = _; rw [h3, List.append_assoc]; rfl, .inl ⟨code, rfl⟩⟩
  | done _ => exact ⟨_, by show s0.out ++ [_] = _; rw [h3, List.append_assoc]; rfl, .inr ⟨_, rfl⟩⟩

/-! ### What is not accepted -/

/-- C78: a Data that is not verified changes no key; onError is called with Validation, or General if the verification raises. -/
theorem C78_unverified (P : Params) (s : St) {id : Nat} {p : Pending} {d : Data} {v : Verdict} {env : Env} (hp : s.pending.find? (fun p => p.id = id) = some p)
    (hv : v ≠ .verified) : let s' := (step P (.data id d v env) s).2
    s'.out = s.out ++ [.answered p d v, .error p.call (if v = .failed then .validation else .general)] ∧ s'.cKeys = s.cKeys ∧ s'.dKeys = s.dKeys ∧ s'.db = s.db ∧
      s'.pending = s.pending.filter fun q => q.id ≠ id := by
  obtain ⟨s0, h0, h1⟩ := step_data (P := P) (env := env) (d := d) (v := v) hp
  dsimp only
  rw [h1, h0]
  cases v with
  | verified => exact absurd rfl hv
  | failed => exact ⟨by show (_ ++ _) ++ _ = _; rw [List.append_assoc]; rfl, rfl, rfl, rfl, rfl⟩
  | raises => exact ⟨by show (_ ++ _) ++ _ = _; rw [List.append_assoc]; rfl, rfl, rfl, rfl, rfl⟩

/-- C78: after the second timeout, or a network Nack, onError is called with DataRetrievalFailure. -/
theorem C78_unanswered (P : Params) (s : St) {id : Nat} {p : Pending} (hp : s.pending.find? (fun p => p.id = id) = some p) {op : Op}
    (ho : op = .nack id ∨ p.retrials = 0 ∧ ∃ env, op = .timeout id env) : let s' := (step P op s).2
    s'.out = s.out ++ [.error p.call .retrievalFailure] ∧ s'.pending = s.pending.filter fun q => q.id ≠ id := by
  dsimp only
  rcases ho with rfl | ⟨hr, env, rfl⟩
  · rw [step_nack hp]
    exact ⟨rfl, rfl⟩
  · obtain ⟨s0, h0, h1⟩ := step_timeout (P := P) (env := env) hp
    rw [h1, h0, if_neg (by omega)]
    exact ⟨rfl, rfl⟩

/-- C78: after the first timeout the same Interest is expressed again. -/
theorem C78_retried (P : Params) (s : St) {id : Nat} {p : Pending} {env : Env} (hp : s.pending.find? (fun p => p.id = id) = some p) (hr : 0 < p.retrials)
    (he : env.expressRaises = false) : ∃ q, (step P (.timeout id env) s).2.out = s.out ++ [.sent q true] ∧ q.name = p.name ∧ q.goal = p.goal ∧ q.call = p.call ∧
      q.retrials + 1 = p.retrials ∧ q ∈ (step P (.timeout id env) s).2.pending := by
  obtain ⟨s0, h0, h1⟩ := step_timeout (P := P) (env := env) hp
  rw [h1, if_pos hr, if_neg (by rw [he]; decide)]
  refine ⟨⟨s0.next, p.call, p.name, p.retrials - 1, p.goal⟩, by rw [h0]; rfl, rfl, rfl, rfl, by dsimp only; omega, List.mem_append_right _ (List.mem_singleton.mpr rfl)⟩

end PyNDN.Consumer
