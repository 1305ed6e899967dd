import Verif.Lemmas.ConsumerInv
/-
How often callbacks are called and Interests are expressed.
-/
namespace PyNDN.Consumer
open EncV1 Spec.Consumer
open Encrypt (EncryptedContent encodeEncryptedContent decodeEncryptedContent)
open PSync (dictGet dictSet dictDel)

variable {P : Params} {s s' : St}

theorem pop_perm {id : Nat} {p : Pending} : ∀ {l : List Pending}, (l.map (·.id)).Nodup → l.find? (fun p => p.id = id) = some p →
    l.Perm (p :: l.filter fun q => q.id ≠ id)
  | [], _, h => nomatch h
  | q :: l, hn, h => by
    rw [List.map_cons, List.nodup_cons] at hn
    rw [List.find?_cons] at h
    by_cases e : q.id = id
    · rw [show decide (q.id = id) = true from decide_eq_true e] at h
      cases h
      rw [List.filter_cons, if_neg (by simpa using e), List.filter_eq_self.mpr]
      intro r hr
      have : r.id ≠ id := fun h => hn.1 (by rw [e, ← h]; exact List.mem_map_of_mem hr)
      simpa using this
    · rw [show decide (q.id = id) = false from decide_eq_false e] at h
      rw [List.filter_cons, if_pos (by simpa using e)]
      exact ((pop_perm hn.2 h).cons q).trans (List.Perm.swap ..)

/-- Ends the work for the call. -/
def Ends (call : Nat) (o : Out) : Prop := (∃ code, o = .error call code) ∨ (∃ d plain, o = .complete call d plain) ∨ o = .logged call

def left : Goal → Nat
  | .content => 2
  | .cKey _ _ => 1
  | .dKey _ _ _ _ => 0

/-- What happens to the Interests and the trace when `p` is no more pending. -/
inductive Move (p : Pending) (s : St) : St → Prop where
  | stop {s' : St} {o : Out} (h1 : s'.pending = s.pending) (h2 : s'.next = s.next) (h3 : s'.out = s.out ++ [o]) (ho : Ends p.call o) : Move p s s'
  | ask {s' : St} {q : Pending} (h1 : s' = sentS s q false) (hc : q.call = p.call) (hr : q.retrials = 1) (hl : left q.goal + 1 = left p.goal) (hi : q.id = s.next) : Move p s s'
  | again {s' : St} {q : Pending} (h1 : s' = sentS s q true) (hc : q.call = p.call) (hr : q.retrials + 1 = p.retrials) (hg : q.goal = p.goal) (hi : q.id = s.next) : Move p s s'

theorem Move.err {p : Pending} {code : Code} : Move p s (errS s p.call code) := .stop rfl rfl rfl (.inl ⟨code, rfl⟩)

theorem Move.last {p : Pending} {d : Data} {c : EncryptedContent} {key : Bytes} {s0 : St} (h : Last P p.call d c key s0 s') (h1 : s0.pending = s.pending) (h2 : s0.next = s.next)
    (h3 : s0.out = s.out) : Move p s s' := by
  cases h with
  | error code => exact .stop h1 h2 (by rw [← h3]; rfl) (.inl ⟨code, rfl⟩)
  | done _ => exact .stop h1 h2 (by rw [← h3]; rfl) (.inr (.inl ⟨_, _, rfl⟩))

theorem Move.mid {p : Pending} {d : Data} {c k : EncryptedContent} {key : Bytes} {s0 : St} (h : Mid P p.call d c k key s0 s') (h1 : s0.pending = s.pending) (h2 : s0.next = s.next)
    (h3 : s0.out = s.out) : Move p s s' := by
  cases h with
  | error code => exact .stop h1 h2 (by rw [← h3]; rfl) (.inl ⟨code, rfl⟩)
  | got _ hl => exact Move.last hl h1 h2 h3

theorem Move.of {p : Pending} {d : Data} (h : Outcome P p.call s p.goal d s') : Move p s s' := by
  generalize hg : p.goal = g at h
  cases h with
  | error code => exact .err
  | ask1 _ => exact .ask rfl rfl rfl (by rw [hg]; rfl) rfl
  | last _ _ hl => exact .last hl rfl rfl rfl
  | ask2 _ _ => exact .ask rfl rfl rfl (by rw [hg]; rfl) rfl
  | mid _ _ _ hm => exact .mid hm rfl rfl rfl
  | logged2 _ _ => exact .stop rfl rfl rfl (.inr (.inr rfl))
  | first _ _ _ _ _ _ _ hm => exact .mid hm rfl rfl rfl
  | logged3 _ _ _ => exact .stop rfl rfl rfl (.inr (.inr rfl))

/-- What each step does to the Interests and the trace. -/
inductive Turn (s : St) (op : Op) : St → Prop where
  | same {s' : St} (h1 : s'.pending = s.pending) (h2 : s'.next = s.next) (h3 : s'.out = s.out) (hc : ∀ c n e, op ≠ .consume c n e) : Turn s op s'
  | move {id : Nat} {p : Pending} {s0 s' : St} (hp : s.pending.find? (fun p => p.id = id) = some p) (h1 : s0.pending = s.pending.filter fun q => q.id ≠ id)
      (h2 : s0.next = s.next) (h3 : s0.out = s.out ∨ ∃ d v, op = .data id d v (match op with | .data _ _ _ e => e | _ => {}) ∧ s0.out = s.out ++ [.answered p d v])
      (hm : Move p s0 s') (hc : ∀ c n e, op ≠ .consume c n e) : Turn s op s'
  | fails {call : Nat} {n : Name} {env : Env} {code : Code} (ho : op = .consume call n env) : Turn s op (errS s call code)
  | starts {call : Nat} {n : Name} {env : Env} (ho : op = .consume call n env) : Turn s op (sentS s ⟨s.next, call, n, 1, .content⟩ false)
  | restart {g : Name} (ho : op = .restart g) : Turn s op { new g s.db with next := s.next, out := s.out }

theorem turn (P : Params) (s : St) (op : Op) : Turn s op (step P op s).2 := by
  cases op with
  | consume call n env =>
    show Turn s _ (sendInterest call n 1 .content false env s).2
    rw [send_spec]
    dsimp only
    split
    · exact .fails rfl
    · exact .starts rfl
  | addDecryptionKey n k =>
    show Turn s _ (addDecryptionKey P n k s).2
    unfold addDecryptionKey
    split
    · exact .same rfl rfl rfl (fun _ _ _ h => nomatch h)
    · show Turn s _ (M.bind get _ s).2
      unfold M.bind get
      dsimp only
      split
      · exact .same rfl rfl rfl (fun _ _ _ h => nomatch h)
      · exact .same rfl rfl rfl (fun _ _ _ h => nomatch h)
  | deleteKey n => exact .same rfl rfl rfl (fun _ _ _ h => nomatch h)
  | setGroup g => exact .same rfl rfl rfl (fun _ _ _ h => nomatch h)
  | data id d v env =>
    cases hp : s.pending.find? fun p => p.id = id with
    | none => show Turn s _ (answer id _ s).2; rw [answer_none hp]; exact .same rfl rfl rfl (fun _ _ _ h => nomatch h)
    | some p =>
      obtain ⟨s0, h0, h1⟩ := step_data (P := P) (env := env) (d := d) (v := v) hp
      rw [h1]
      refine .move (s0 := s0) hp (by rw [h0]) (by rw [h0]) (.inr ⟨d, v, rfl, by rw [h0]⟩) ?_ (fun _ _ _ h => nomatch h)
      cases v with
      | failed => exact .err
      | raises => exact .err
      | verified => exact .of (outcome P p d env s0)
  | timeout id env =>
    cases hp : s.pending.find? fun p => p.id = id with
    | none => show Turn s _ (answer id _ s).2; rw [answer_none hp]; exact .same rfl rfl rfl (fun _ _ _ h => nomatch h)
    | some p =>
      obtain ⟨s0, h0, h1⟩ := step_timeout (P := P) (env := env) hp
      rw [h1]
      refine .move (s0 := s0) hp (by rw [h0]) (by rw [h0]) (.inl (by rw [h0])) ?_ (fun _ _ _ h => nomatch h)
      split
      · split
        · exact .err
        · rename_i hr _
          exact .again rfl rfl (by dsimp only; omega) rfl rfl
      · exact .err
  | nack id =>
    cases hp : s.pending.find? fun p => p.id = id with
    | none => show Turn s _ (answer id _ s).2; rw [answer_none hp]; exact .same rfl rfl rfl (fun _ _ _ h => nomatch h)
    | some p =>
      rw [step_nack hp]
      exact .move (s0 := { s with pending := s.pending.filter fun q => q.id ≠ id }) hp rfl rfl (.inl rfl) .err (fun _ _ _ h => nomatch h)
  | restart g => exact .restart rfl

/-! ### Measures -/

def tot (f : Pending → Nat) (l : List Pending) : Nat := (l.map f).sum

theorem tot_snoc (f : Pending → Nat) (l : List Pending) (q : Pending) : tot f (l ++ [q]) = tot f l + f q := by simp [tot]
theorem tot_perm {f : Pending → Nat} {l l' : List Pending} (h : l.Perm l') : tot f l = tot f l' := by
  unfold tot
  exact (h.map f).sum_eq
theorem tot_cons (f : Pending → Nat) (l : List Pending) (q : Pending) : tot f (q :: l) = f q + tot f l := by simp [tot]

def one (call : Nat) (p : Pending) : Nat := if p.call = call then 1 else 0
def stages (call : Nat) (p : Pending) : Nat := if p.call = call then left p.goal else 0
def tries (call : Nat) (p : Pending) : Nat := if p.call = call then p.retrials else 0

theorem open_tot (call : Nat) : ∀ l : List Pending, open' call l = tot (one call) l
  | [] => rfl
  | p :: l => by
    have := open_tot call l
    unfold open' at *
    rw [List.countP_cons, tot_cons, this]
    unfold one
    by_cases h : p.call = call
    · simp [h]; omega
    · simp [h]

/-- The calls of callbacks, and what is logged. -/
def ends (call : Nat) (o : List Out) : Nat := callbacks call o + logs call o

theorem callbacks_app (call : Nat) (a b : List Out) : callbacks call (a ++ b) = callbacks call a + callbacks call b := List.countP_append
theorem logs_app (call : Nat) (a b : List Out) : logs call (a ++ b) = logs call a + logs call b := List.countP_append
theorem sends_app (again : Bool) (call : Nat) (a b : List Out) : sends again call (a ++ b) = sends again call a + sends again call b := List.countP_append
theorem ends_app (call : Nat) (a b : List Out) : ends call (a ++ b) = ends call a + ends call b := by
  unfold ends; rw [callbacks_app, logs_app]; omega

theorem ends_of {c call : Nat} {o : Out} (h : Ends c o) : ends call [o] = (if c = call then 1 else 0) ∧ sends true call [o] = 0 ∧ sends false call [o] = 0 := by
  rcases h with ⟨code, rfl⟩ | ⟨d, plain, rfl⟩ | rfl <;> (unfold ends callbacks logs sends; by_cases e : c = call <;> simp [e])

theorem ends_sent {call : Nat} {q : Pending} {a : Bool} : ends call [.sent q a] = 0 := rfl

theorem sends_sent {call : Nat} {q : Pending} {a b : Bool} : sends b call [.sent q a] = if q.call = call ∧ a = b then 1 else 0 := by
  unfold sends
  by_cases e : q.call = call ∧ a = b
  · rw [if_pos e]; simp [e]
  · rw [if_neg e]
    rw [List.countP_cons]
    simp only [List.countP_nil]
    simp [e]

theorem ends_answered {call : Nat} {q : Pending} {d : Data} {v : Verdict} : ends call [.answered q d v] = 0 := rfl
theorem sends_answered {call : Nat} {q : Pending} {d : Data} {v : Verdict} {b : Bool} : sends b call [.answered q d v] = 0 := rfl

structure W (P : Params) (n : Nat → Nat) (strict : Prop) (s : St) : Prop where
  ids : (s.pending.map (·.id)).Nodup
  fresh : ∀ p ∈ s.pending, p.id < s.next
  le : ∀ call, ends call s.out + tot (one call) s.pending ≤ n call
  eq : strict → ∀ call, ends call s.out + tot (one call) s.pending = n call
  stages : ∀ call, sends false call s.out + tot (stages call) s.pending ≤ 3 * n call
  tries : ∀ call, sends true call s.out + tot (tries call) s.pending ≤ sends false call s.out

variable {n : Nat → Nat} {strict : Prop}

theorem nodup_snoc {l : List Pending} {q : Pending} {k : Nat} (h : (l.map (·.id)).Nodup) (hf : ∀ p ∈ l, p.id < k) (hq : q.id = k) : ((l ++ [q]).map (·.id)).Nodup := by
  rw [List.map_append, List.nodup_append]
  refine ⟨h, by simp, ?_⟩
  intro a ha b hb
  simp only [List.map_cons, List.map_nil, List.mem_singleton] at hb
  obtain ⟨p, hp, rfl⟩ := List.mem_map.mp ha
  have := hf p hp
  omega

theorem W.step (h : W P n strict s) {op : Op} (ht : Turn s op s') (hr : strict → NoRestart op) :
    W P (fun call => n call + consumes call [op]) strict s' := by
  cases ht with
  | same h1 h2 h3 hc =>
    have h0 : ∀ call, consumes call [op] = 0 := by
      intro call
      unfold consumes
      cases op with
      | consume c n e => exact absurd rfl (hc c n e)
      | _ => rfl
    refine ⟨by rw [h1]; exact h.ids, by rw [h1, h2]; exact h.fresh, ?_, ?_, ?_, ?_⟩
    · intro call; rw [h1, h3, h0]; exact h.le call
    · intro hs call; rw [h1, h3, h0]; exact h.eq hs call
    · intro call; rw [h1, h3, h0]; exact h.stages call
    · intro call; rw [h1, h3]; exact h.tries call
  | @move id p s0 s' hp h1 h2 h3 hm hc =>
    have h0 : ∀ call, consumes call [op] = 0 := by
      intro call
      unfold consumes
      cases op with
      | consume c n e => exact absurd rfl (hc c n e)
      | _ => rfl
    have hperm := pop_perm h.ids hp
    have ht : ∀ f, tot f s.pending = f p + tot f s0.pending := by
      intro f
      rw [tot_perm hperm, tot_cons, h1]
    have ho : ∀ call, ends call s0.out = ends call s.out ∧ ∀ b, sends b call s0.out = sends b call s.out := by
      intro call
      rcases h3 with h3 | ⟨d, v, _, h3⟩
      · rw [h3]; exact ⟨rfl, fun _ => rfl⟩
      · rw [h3, ends_app]
        refine ⟨by rw [ends_answered, Nat.add_zero], fun b => ?_⟩
        rw [sends_app, sends_answered, Nat.add_zero]
    have hids : (s0.pending.map (·.id)).Nodup := by
      rw [h1]
      exact (List.filter_sublist.map _).nodup h.ids
    have hfresh : ∀ q ∈ s0.pending, q.id < s0.next := by
      intro q hq
      rw [h1] at hq
      rw [h2]
      exact h.fresh q (List.mem_of_mem_filter hq)
    cases hm with
    | stop k1 k2 k3 k4 =>
      refine ⟨by rw [k1]; exact hids, by rw [k1, k2]; exact hfresh, ?_, ?_, ?_, ?_⟩
      · intro call
        have := h.le call
        rw [ht] at this
        rw [k1, k3, ends_app, (ends_of k4).1, (ho call).1, h0]
        unfold one at *
        omega
      · intro hs call
        have := h.eq hs call
        rw [ht] at this
        rw [k1, k3, ends_app, (ends_of k4).1, (ho call).1, h0]
        unfold one at *
        omega
      · intro call
        have := h.stages call
        rw [ht] at this
        rw [k1, k3, sends_app, (ends_of k4).2.2, (ho call).2, h0]
        omega
      · intro call
        have := h.tries call
        rw [ht] at this
        rw [k1, k3, sends_app, sends_app, (ends_of k4).2.1, (ends_of k4).2.2, (ho call).2, (ho call).2]
        omega
    | @ask q k1 k2 k3 k4 k5 =>
      subst k1
      refine ⟨nodup_snoc hids hfresh k5, ?_, ?_, ?_, ?_, ?_⟩
      · intro r hr
        rcases List.mem_append.mp hr with hr | hr
        · exact Nat.lt_succ_of_lt (hfresh r hr)
        · rw [List.mem_singleton.mp hr, k5]; exact Nat.lt_succ_self _
      · intro call
        have := h.le call
        rw [ht] at this
        show ends call (s0.out ++ [_]) + tot _ (s0.pending ++ [q]) ≤ _
        rw [tot_snoc, ends_app, ends_sent, (ho call).1, h0]
        unfold one at *
        rw [k2]
        omega
      · intro hs call
        have := h.eq hs call
        rw [ht] at this
        show ends call (s0.out ++ [_]) + tot _ (s0.pending ++ [q]) = _
        rw [tot_snoc, ends_app, ends_sent, (ho call).1, h0]
        unfold one at *
        rw [k2]
        omega
      · intro call
        have := h.stages call
        rw [ht] at this
        show sends false call (s0.out ++ [_]) + tot _ (s0.pending ++ [q]) ≤ _
        rw [tot_snoc, sends_app, sends_sent, (ho call).2, h0, k2]
        unfold Consumer.stages at *
        rw [k2]
        split at this
        · rename_i e
          rw [if_pos e, if_pos ⟨e, rfl⟩]
          omega
        · rename_i e
          rw [if_neg e, if_neg (fun h => e h.1)]
          omega
      · intro call
        have := h.tries call
        rw [ht] at this
        show sends true call (s0.out ++ [_]) + tot _ (s0.pending ++ [q]) ≤ sends false call (s0.out ++ [_])
        rw [tot_snoc, sends_app, sends_app, sends_sent, sends_sent, (ho call).2, (ho call).2, k2, if_neg (fun h => nomatch h.2)]
        unfold Consumer.tries at *
        rw [k2, k3]
        by_cases e : p.call = call
        · rw [if_pos e, if_pos ⟨e, rfl⟩]
          omega
        · rw [if_neg e, if_neg (fun h => e h.1)]
          omega
    | @again q k1 k2 k3 k4 k5 =>
      subst k1
      refine ⟨nodup_snoc hids hfresh k5, ?_, ?_, ?_, ?_, ?_⟩
      · intro r hr
        rcases List.mem_append.mp hr with hr | hr
        · exact Nat.lt_succ_of_lt (hfresh r hr)
        · rw [List.mem_singleton.mp hr, k5]; exact Nat.lt_succ_self _
      · intro call
        have := h.le call
        rw [ht] at this
        show ends call (s0.out ++ [_]) + tot _ (s0.pending ++ [q]) ≤ _
        rw [tot_snoc, ends_app, ends_sent, (ho call).1, h0]
        unfold one at *
        rw [k2]
        omega
      · intro hs call
        have := h.eq hs call
        rw [ht] at this
        show ends call (s0.out ++ [_]) + tot _ (s0.pending ++ [q]) = _
        rw [tot_snoc, ends_app, ends_sent, (ho call).1, h0]
        unfold one at *
        rw [k2]
        omega
      · intro call
        have := h.stages call
        rw [ht] at this
        show sends false call (s0.out ++ [_]) + tot _ (s0.pending ++ [q]) ≤ _
        rw [tot_snoc, sends_app, sends_sent, (ho call).2, h0, if_neg (fun h => nomatch h.2)]
        unfold Consumer.stages at *
        rw [k2, k4]
        omega
      · intro call
        have := h.tries call
        rw [ht] at this
        show sends true call (s0.out ++ [_]) + tot _ (s0.pending ++ [q]) ≤ sends false call (s0.out ++ [_])
        rw [tot_snoc, sends_app, sends_app, sends_sent, sends_sent, (ho call).2, (ho call).2, k2, if_neg (fun h : _ ∧ true = false => nomatch h.2)]
        unfold Consumer.tries at *
        rw [k2]
        by_cases e : p.call = call
        · rw [if_pos e] at this ⊢
          rw [if_pos ⟨e, rfl⟩]
          omega
        · rw [if_neg e] at this ⊢
          rw [if_neg (fun h => e h.1)]
          omega
  | @fails c m env code ho =>
    subst ho
    have h0 : ∀ call, consumes call [Op.consume c m env] = if c = call then 1 else 0 := by
      intro call
      unfold consumes
      by_cases e : c = call <;> simp [e]
    have he : ∀ call, _ := fun call => ends_of (call := call) (show Ends c (.error c code) from .inl ⟨code, rfl⟩)
    refine ⟨h.ids, h.fresh, ?_, ?_, ?_, ?_⟩
    · intro call
      have := h.le call
      show ends call (s.out ++ [_]) + tot _ s.pending ≤ _
      rw [ends_app, (he call).1, h0]
      omega
    · intro hs call
      have := h.eq hs call
      show ends call (s.out ++ [_]) + tot _ s.pending = _
      rw [ends_app, (he call).1, h0]
      omega
    · intro call
      have := h.stages call
      show sends false call (s.out ++ [_]) + tot _ s.pending ≤ _
      rw [sends_app, (he call).2.2]
      omega
    · intro call
      have := h.tries call
      show sends true call (s.out ++ [_]) + tot _ s.pending ≤ sends false call (s.out ++ [_])
      rw [sends_app, sends_app, (he call).2.2, (he call).2.1]
      omega
  | @starts c m env ho =>
    subst ho
    have h0 : ∀ call, consumes call [Op.consume c m env] = if c = call then 1 else 0 := by
      intro call
      unfold consumes
      by_cases e : c = call <;> simp [e]
    refine ⟨nodup_snoc h.ids h.fresh rfl, ?_, ?_, ?_, ?_, ?_⟩
    · intro r hr
      rcases List.mem_append.mp hr with hr | hr
      · exact Nat.lt_succ_of_lt (h.fresh r hr)
      · rw [List.mem_singleton.mp hr]; exact Nat.lt_succ_self _
    · intro call
      have := h.le call
      show ends call (s.out ++ [_]) + tot _ (s.pending ++ [_]) ≤ _
      rw [tot_snoc, ends_app, ends_sent, h0]
      unfold one at *
      dsimp only
      omega
    · intro hs call
      have := h.eq hs call
      show ends call (s.out ++ [_]) + tot _ (s.pending ++ [_]) = _
      rw [tot_snoc, ends_app, ends_sent, h0]
      unfold one at *
      dsimp only
      omega
    · intro call
      have := h.stages call
      show sends false call (s.out ++ [_]) + tot _ (s.pending ++ [_]) ≤ _
      rw [tot_snoc, sends_app, sends_sent, h0]
      unfold Consumer.stages at *
      dsimp only
      by_cases e : c = call
      · rw [if_pos e, if_pos e, if_pos ⟨e, rfl⟩]
        have e2 : left .content = 2 := rfl
        rw [e2]
        omega
      · rw [if_neg e, if_neg e, if_neg (fun h => e h.1)]
        omega
    · intro call
      have := h.tries call
      show sends true call (s.out ++ [_]) + tot _ (s.pending ++ [_]) ≤ sends false call (s.out ++ [_])
      rw [tot_snoc, sends_app, sends_app, sends_sent, sends_sent, if_neg (fun h => nomatch h.2)]
      unfold Consumer.tries at *
      dsimp only
      by_cases e : c = call
      · rw [if_pos e, if_pos ⟨e, rfl⟩]
        omega
      · rw [if_neg e, if_neg (fun h => e h.1)]
        omega
  | @restart g ho =>
    subst ho
    refine ⟨List.nodup_nil, (fun _ h => nomatch h), ?_, fun hs => absurd rfl (hr hs g), ?_, ?_⟩
    · intro call
      have := h.le call
      show ends call s.out + 0 ≤ n call + 0
      omega
    · intro call
      have := h.stages call
      show sends false call s.out + 0 ≤ 3 * (n call + 0)
      omega
    · intro call
      have := h.tries call
      show sends true call s.out + 0 ≤ sends false call s.out
      omega

theorem consumes_cons (call : Nat) (op : Op) (ops : List Op) : consumes call (op :: ops) = consumes call [op] + consumes call ops := by
  unfold consumes
  rw [List.countP_cons, List.countP_cons, List.countP_nil]
  omega

theorem W.run : ∀ {ops : List Op} {n : Nat → Nat} {s : St}, W P n strict s → (strict → ∀ op ∈ ops, NoRestart op) →
    W P (fun call => n call + consumes call ops) strict (run P s ops).2
  | [], n, s, h, _ => h
  | op :: ops, n, s, h, hr => by
    have := W.run (ops := ops) (h.step (turn P s op) fun hs => hr hs op (List.mem_cons_self ..)) fun hs o ho => hr hs o (List.mem_cons_of_mem _ ho)
    have e : (fun call => n call + consumes call (op :: ops)) = fun call => n call + consumes call [op] + consumes call ops := by
      funext call; rw [consumes_cons]; omega
    rw [e]
    exact this

end PyNDN.Consumer
