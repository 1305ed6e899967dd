import Verif.Lemmas.ConfigPolicy
/-
What one step of a `ConfigPolicyManager` does to the calls: each call ends once; the number of Interests; the timestamps.
-/
namespace PyNDN.ConfigPolicy
open PyNDN PyNDN.BoostInfo
open PyNDN.Validator (SData Packet Relation Cache Entry interestSignature)
open PyNDN.Spec.Validator (KeyLocatorIs)
open PyNDN.Spec.ConfigPolicy

variable {E : Env}

/-- The command of a packet that has been checked at a time with the given timestamps. -/
def Checked (E : Env) (timestamps : List (Str × Nat)) (now : Int) (p : Packet) (cmd : Option (Str × Nat)) : Prop :=
  ∃ sig kl, extractSignature p = some sig ∧ sig.info.keyLocator? = some kl ∧ kl.type = some 1 ∧ commandOf E p sig = .ok cmd ∧
    ∀ y : Sys, y.timestamps = timestamps → y.now = now → isFresh E y cmd = true

theorem isFresh_congr {y y' : Sys} (h1 : y'.timestamps = y.timestamps) (h2 : y'.now = y.now) (cmd : Option (Str × Nat)) :
    isFresh E y' cmd = isFresh E y cmd := by
  unfold isFresh timestampIsFresh
  rw [h1, h2]

theorem getCertificateInterest_step {y y' : Sys} {step : Nat} {ty : Str} {n : Name} {sig : Signature} {r : Need}
    (h : getCertificateInterest E y step ty n sig = (y', .ok r)) : step ≤ E.maxDepth := by
  unfold getCertificateInterest at h
  split at h
  · injection h with _ h
    cases h
  · omega

theorem verifyWith_type {y y' : Sys} {sig : Signature} {b : Bytes} (h : verifyWith E y sig b = (y', .ok true)) :
    ∃ kl, sig.info.keyLocator? = some kl ∧ kl.type = some 1 := by
  unfold verifyWith at h
  split at h
  · injection h with _ h
    cases h
  · next kl hkl =>
    split at h
    · injection h with _ h
      cases h
    · next ht => exact ⟨kl, hkl, by simpa using ht⟩

theorem decidePacket_good {y y' : Sys} {p : Packet} {step : Nat} {cmd : Option (Str × Nat)}
    (h : decidePacket E y p step = (y', .good cmd)) : Checked E y.timestamps y.now p cmd := by
  unfold decidePacket at h
  split at h
  · injection h with _ h
    cases h
  · split at h
    · injection h with _ h
      cases h
    · next sig hsig =>
      split at h
      · injection h with _ h
        cases h
      · injection h with _ h
        cases h
      · injection h with _ h
        cases h
      · next y1 hg =>
        have hs := getCertificateInterest_same hg
        unfold checkKnown at h
        split at h
        · injection h with _ h
          cases h
        · next cmd' hc =>
          split at h
          · next hf =>
            split at h
            · injection h with _ h
              cases h
            · split at h
              · injection h with _ h
                cases h
              · next hv =>
                injection h with _ h
                injection h with h
                subst h
                obtain ⟨kl, h1, h2⟩ := verifyWith_type hv
                refine ⟨sig, kl, hsig, h1, h2, hc, fun z hz1 hz2 => ?_⟩
                rw [isFresh_congr (hz1.trans hs.timestamps.symm) (hz2.trans hs.now.symm)]
                exact hf
              · injection h with _ h
                cases h
          · injection h with _ h
            cases h

theorem decidePacket_request {y y' : Sys} {p : Packet} {step : Nat} {n : Name}
    (h : decidePacket E y p step = (y', .request n)) : step ≤ E.maxDepth := by
  unfold decidePacket at h
  split at h
  · injection h with _ h
    cases h
  · split at h
    · injection h with _ h
      cases h
    · split at h
      · injection h with _ h
        cases h
      · injection h with _ h
        cases h
      · next hg => exact getCertificateInterest_step hg
      · unfold checkKnown at h
        split at h
        · injection h with _ h
          cases h
        · split at h
          · split at h
            · injection h with _ h
              cases h
            · split at h <;>
              · injection h with _ h
                cases h
          · injection h with _ h
            cases h

/-- The frame for a command. -/
def framesOf (id : Nat) (cmd : Option (Str × Nat)) : List Frame := (cmd.map fun c => (⟨id, c.1, c.2⟩ : Frame)).toList

/-- The call ends with the event. -/
structure Ends (good : Packet → Option (Str × Nat) → Prop) (y y' : Sys) (id : Nat) (e : Ev) : Prop where
  trace : y'.trace = y.trace ++ [e]
  next : y'.next = y.next
  pending : y'.pending = y.pending
  timestamps : y'.timestamps = y.timestamps
  now : y'.now = y.now
  requires : y'.requiresVerification = y.requiresVerification
  kind : (((∃ p, e = .failed id p) ∨ e = .dropped id ∨ (∃ x, e = .raised id x)) ∧ y'.frames = y.frames) ∨
    ∃ p cmd, e = .verified id p ∧ good p cmd ∧ y'.frames = y.frames ++ framesOf id cmd

theorem ends_emit {good : Packet → Option (Str × Nat) → Prop} {y y' : Sys} (h : Same y y') {id : Nat} {e : Ev}
    (he : (∃ p, e = .failed id p) ∨ e = .dropped id ∨ (∃ x, e = .raised id x)) : Ends good y (y'.emit e) id e :=
  ⟨by rw [← h.trace]; rfl, h.next, h.pending, h.timestamps, h.now, h.requires, .inl ⟨he, h.frames⟩⟩

theorem ends_same {good : Packet → Option (Str × Nat) → Prop} {y y1 y' : Sys} (h : Same y y1) {id : Nat} {e : Ev}
    (he : Ends good y1 y' id e) : Ends good y y' id e :=
  ⟨by rw [← h.trace]; exact he.trace, he.next.trans h.next, he.pending.trans h.pending, he.timestamps.trans h.timestamps,
    he.now.trans h.now, he.requires.trans h.requires, by rw [← h.frames]; exact he.kind⟩

theorem complete_ends (rest : List Level) {good : Packet → Option (Str × Nat) → Prop} : ∀ {y : Sys} {id : Nat} {p : Packet}
    {cmd : Option (Str × Nat)}, good p cmd → (∀ p cmd, Checked E y.timestamps y.now p cmd → good p cmd) →
    ∃ e, Ends good y (complete E y id p cmd rest) id e := by
  induction rest with
  | nil =>
    intro y id p cmd hp _
    exact ⟨_, rfl, rfl, rfl, rfl, rfl, rfl, .inr ⟨p, cmd, rfl, hp, rfl⟩⟩
  | cons l rest ih =>
    intro y id p cmd hp hall
    unfold complete
    split
    · exact ⟨_, ends_emit (.refl y) (.inr (.inl rfl))⟩
    · next d =>
      split
      · exact ⟨_, ends_emit (.refl y) (.inl ⟨_, rfl⟩)⟩
      · split
        · exact ⟨_, ends_emit (.refl y) (.inr (.inl rfl))⟩
        · next s hs =>
          obtain ⟨y2, v, h2⟩ : ∃ y2 v, decidePacket E { y with store := s } l.packet (l.step + 1) = (y2, v) := ⟨_, _, rfl⟩
          have hsame : Same y y2 := by
            have := decidePacket_same h2
            exact ⟨this.now, this.requires, this.config, this.timestamps, this.next, this.pending, this.frames, this.trace⟩
          simp only [h2]
          cases v with
          | raise e => exact ⟨_, ends_emit hsame (.inr (.inl rfl))⟩
          | fail => exact ⟨_, ends_emit hsame (.inl ⟨_, rfl⟩)⟩
          | request n => exact ⟨_, ends_emit hsame (.inr (.inl rfl))⟩
          | good cmd =>
            have h3 := decidePacket_good h2
            have hg := hall _ _ h3
            obtain ⟨e, he⟩ := ih (y := y2) (id := id) hg (by rw [hsame.timestamps, hsame.now]; exact hall)
            exact ⟨e, ends_same hsame he⟩

/-- A request is sent. -/
structure Sends (E : Env) (y y' : Sys) (id : Nat) (n : Nat) : Prop where
  depth : n ≤ E.maxDepth
  trace : ∃ m, y'.trace = y.trace ++ [.express id m]
  pending : ∃ r, y'.pending = y.pending ++ [r] ∧ r.id = id ∧ r.retry = 2 ∧ r.level.step = n
  next : y'.next = y.next
  timestamps : y'.timestamps = y.timestamps
  now : y'.now = y.now
  requires : y'.requiresVerification = y.requiresVerification
  frames : y'.frames = y.frames

theorem verify_ends {good : Packet → Option (Str × Nat) → Prop} {y : Sys} (id : Nat) (p : Packet) (n : Nat) (rest : List Level)
    (h0 : y.requiresVerification = false → good p none) (hall : ∀ p cmd, Checked E y.timestamps y.now p cmd → good p cmd) :
    (∃ e, Ends good y (y.verify E id p n rest) id e) ∨ Sends E y (y.verify E id p n rest) id n := by
  unfold Sys.verify
  cases hr : y.requiresVerification with
  | false =>
    rw [if_neg (by simp)]
    exact .inl (complete_ends rest (h0 hr) hall)
  | true =>
    rw [if_pos rfl]
    obtain ⟨y2, v, h2⟩ : ∃ y2 v, decidePacket E y p n = (y2, v) := ⟨_, _, rfl⟩
    have hsame := decidePacket_same h2
    simp only [h2]
    cases v with
    | raise e => exact .inl ⟨_, ends_emit hsame (.inr (.inr ⟨_, rfl⟩))⟩
    | fail => exact .inl ⟨_, ends_emit hsame (.inl ⟨_, rfl⟩)⟩
    | request m =>
      refine .inr ⟨decidePacket_request h2, ⟨m, ?_⟩, ⟨⟨id, m, 2, ⟨p, n⟩, rest⟩, ?_, rfl, rfl, rfl⟩, hsame.next, hsame.timestamps,
        hsame.now, hsame.requires, hsame.frames⟩
      · show y2.trace ++ _ = _
        rw [hsame.trace]
      · show y2.pending ++ _ = _
        rw [hsame.pending]
    | good cmd =>
      obtain ⟨e, he⟩ := complete_ends rest (y := y2) (id := id) (hall _ _ (decidePacket_good h2))
        (by rw [hsame.timestamps, hsame.now]; exact hall)
      exact .inl ⟨e, ends_same hsame he⟩

/-! ### Counting -/

/-- How many requests a call still has to wait for. -/
def waits (id : Nat) (l : List Pending) : Nat := l.countP fun r => r.id == id

/-- How many Interests the requests of a call can still cause. -/
def potential (E : Env) (id : Nat) (l : List Pending) : Nat :=
  (l.map fun r => if r.id == id then r.retry + 3 * (E.maxDepth - r.level.step) else 0).sum

/-- The invariant of the calls. -/
structure Counts (E : Env) (y : Sys) : Prop where
  once : ∀ id, y.trace.countP (isEnd id) + waits id y.pending = if id < y.next then 1 else 0
  sends : ∀ id, y.trace.countP (isSend id) + potential E id y.pending ≤ if id < y.next then 3 * (E.maxDepth + 1) else 0
  called : ∀ id p, Ev.called id p ∈ y.trace → id < y.next

theorem erase_split {l : List Pending} {k : Nat} {r : Pending} (h : l[k]? = some r) :
    ∃ a b, l = a ++ r :: b ∧ l.eraseIdx k = a ++ b := by
  refine ⟨l.take k, l.drop (k + 1), ?_, List.eraseIdx_eq_take_drop_succ l k⟩
  obtain ⟨hk, rfl⟩ := List.getElem?_eq_some_iff.mp h
  rw [← List.drop_eq_getElem_cons hk, List.take_append_drop]

theorem waits_append (id : Nat) (a b : List Pending) : waits id (a ++ b) = waits id a + waits id b := by
  unfold waits
  rw [List.countP_append]

theorem waits_cons (id : Nat) (r : Pending) (b : List Pending) : waits id (r :: b) = waits id b + if r.id = id then 1 else 0 := by
  unfold waits
  rw [List.countP_cons]
  simp

theorem potential_append (id : Nat) (a b : List Pending) : potential E id (a ++ b) = potential E id a + potential E id b := by
  unfold potential
  rw [List.map_append, List.sum_append]

theorem potential_cons (id : Nat) (r : Pending) (b : List Pending) :
    potential E id (r :: b) = (if r.id = id then r.retry + 3 * (E.maxDepth - r.level.step) else 0) + potential E id b := by
  unfold potential
  rw [List.map_cons, List.sum_cons]
  simp

theorem count_one {p : Ev → Bool} {l : List Ev} {e : Ev} : (l ++ [e]).countP p = l.countP p + if p e = true then 1 else 0 := by
  rw [List.countP_append, List.countP_cons]
  simp

/-- What the end of a call does to the counts. -/
theorem ends_counts {good : Packet → Option (Str × Nat) → Prop} {y y' : Sys} {i : Nat} {e : Ev} (h : Ends good y y' i e) (id : Nat) :
    y'.trace.countP (isEnd id) = y.trace.countP (isEnd id) + (if i = id then 1 else 0) ∧
    y'.trace.countP (isSend id) = y.trace.countP (isSend id) ∧
    (∀ j p, Ev.called j p ∈ y'.trace → Ev.called j p ∈ y.trace) := by
  have he : isEnd id e = decide (i = id) ∧ isSend id e = false ∧ ∀ j p, e ≠ .called j p := by
    rcases h.kind with ⟨⟨p, rfl⟩ | rfl | ⟨x, rfl⟩, _⟩ | ⟨p, cmd, rfl, _, _⟩ <;>
      exact ⟨rfl, rfl, fun j p => by simp⟩
  rw [h.trace, count_one, count_one, he.1, he.2.1]
  refine ⟨by simp, by simp, fun j p hm => ?_⟩
  rcases List.mem_append.mp hm with hm | hm
  · exact hm
  · exact absurd (List.mem_singleton.mp hm).symm (he.2.2 j p)

theorem sends_counts {y y' : Sys} {i n : Nat} (h : Sends E y y' i n) (id : Nat) :
    y'.trace.countP (isEnd id) = y.trace.countP (isEnd id) ∧
    y'.trace.countP (isSend id) = y.trace.countP (isSend id) + (if i = id then 1 else 0) ∧
    (∀ j p, Ev.called j p ∈ y'.trace → Ev.called j p ∈ y.trace) ∧
    waits id y'.pending = waits id y.pending + (if i = id then 1 else 0) ∧
    potential E id y'.pending = potential E id y.pending + (if i = id then 2 + 3 * (E.maxDepth - n) else 0) := by
  obtain ⟨m, ht⟩ := h.trace
  obtain ⟨r, hp, h1, h2, h3⟩ := h.pending
  rw [ht, count_one, count_one, hp, waits_append, potential_append, waits_cons, potential_cons, h1, h2, h3]
  refine ⟨by simp [isEnd], by simp [isSend], fun j p hm => ?_, by simp [waits], by simp [potential]⟩
  rcases List.mem_append.mp hm with hm | hm
  · exact hm
  · simp at hm

theorem counts_congr {y y' : Sys} (hy : Counts E y) (h1 : y'.trace = y.trace) (h2 : y'.pending = y.pending) (h3 : y'.next = y.next) :
    Counts E y' := by
  refine ⟨?_, ?_, ?_⟩
  · rw [h1, h2, h3]; exact hy.once
  · rw [h1, h2, h3]; exact hy.sends
  · rw [h1, h3]; exact hy.called

theorem counts_emit {y : Sys} (hy : Counts E y) (e : Ev) (h1 : ∀ id, isEnd id e = false) (h2 : ∀ id, isSend id e = false)
    (h3 : ∀ id p, e ≠ .called id p) : Counts E (y.emit e) := by
  refine ⟨fun id => ?_, fun id => ?_, fun id p hm => ?_⟩
  · show (y.trace ++ [e]).countP _ + _ = _
    rw [count_one, h1]
    exact hy.once id
  · show (y.trace ++ [e]).countP _ + _ ≤ _
    rw [count_one, h2]
    exact hy.sends id
  · rcases List.mem_append.mp hm with hm | hm
    · exact hy.called id p hm
    · exact absurd (List.mem_singleton.mp hm).symm (h3 id p)

theorem step_counts {y : Sys} (hy : Counts E y) (e : Event) : Counts E (step E y e) := by
  cases e with
  | verify p n =>
    show Counts E (Sys.verify E { y.emit (.called y.next p) with next := y.next + 1 } y.next p n [])
    have hcalled : ∀ j q, Ev.called j q ∈ y.trace ++ [Ev.called y.next p] → j < y.next + 1 := by
      intro j q hm
      rcases List.mem_append.mp hm with hm | hm
      · have := hy.called j q hm
        omega
      · have := List.mem_singleton.mp hm
        injection this with h _
        omega
    rcases verify_ends (E := E) (good := fun _ _ => True) (y := { y.emit (.called y.next p) with next := y.next + 1 }) y.next p n []
      (fun _ => trivial) (fun _ _ _ => trivial) with ⟨e, h⟩ | h
    · refine ⟨fun id => ?_, fun id => ?_, fun id q hm => ?_⟩
      · obtain ⟨h1, _, _⟩ := ends_counts h id
        rw [h1, h.pending, h.next]
        show (y.trace ++ [_]).countP _ + _ + waits id y.pending = if id < y.next + 1 then 1 else 0
        rw [count_one]
        have := hy.once id
        simp only [isEnd, Bool.false_eq_true, if_false]
        split at this <;> split <;> split <;> omega
      · obtain ⟨_, h1, _⟩ := ends_counts h id
        rw [h1, h.pending, h.next]
        show (y.trace ++ [_]).countP _ + potential E id y.pending ≤ if id < y.next + 1 then _ else 0
        rw [count_one]
        have := hy.sends id
        simp only [isSend, Bool.false_eq_true, if_false]
        split at this <;> split <;> omega
      · rw [h.next]
        exact hcalled id q ((ends_counts h id).2.2 id q hm)
    · refine ⟨fun id => ?_, fun id => ?_, fun id q hm => ?_⟩
      · obtain ⟨h1, _, _, h4, _⟩ := sends_counts h id
        rw [h1, h4, h.next]
        show (y.trace ++ [_]).countP _ + (waits id y.pending + _) = if id < y.next + 1 then 1 else 0
        rw [count_one]
        have := hy.once id
        simp only [isEnd, Bool.false_eq_true, if_false]
        split at this <;> split <;> split <;> omega
      · obtain ⟨_, h1, _, _, h5⟩ := sends_counts h id
        rw [h1, h5, h.next]
        show (y.trace ++ [_]).countP _ + _ + (potential E id y.pending + _) ≤ if id < y.next + 1 then _ else 0
        rw [count_one]
        have := hy.sends id
        have hstep := h.depth
        simp only [isSend, Bool.false_eq_true, if_false]
        split at this <;> split <;> split <;> omega
      · rw [h.next]
        exact hcalled id q ((sends_counts h id).2.2.1 id q hm)
  | data k d =>
    show Counts E (y.onData E k d)
    unfold Sys.onData
    split
    · exact hy
    · next r hr =>
      obtain ⟨a, b, hab, her⟩ := erase_split hr
      have hw : ∀ id, waits id y.pending = waits id (a ++ b) + if r.id = id then 1 else 0 := by
        intro id
        rw [hab, waits_append, waits_cons, waits_append]
        omega
      have hpot : ∀ id, potential E id y.pending =
          potential E id (a ++ b) + if r.id = id then r.retry + 3 * (E.maxDepth - r.level.step) else 0 := by
        intro id
        rw [hab, potential_append, potential_cons, potential_append]
        omega
      rcases verify_ends (E := E) (good := fun _ _ => True) (y := { y with pending := y.pending.eraseIdx k }) r.id (.data d)
        (r.level.step + 1) (r.level :: r.rest) (fun _ => trivial) (fun _ _ _ => trivial) with ⟨e, h⟩ | h
      · refine ⟨fun id => ?_, fun id => ?_, fun id q hm => ?_⟩
        · obtain ⟨h1, _, _⟩ := ends_counts h id
          rw [h1, h.pending, h.next]
          show y.trace.countP _ + _ + waits id (y.pending.eraseIdx k) = if id < y.next then 1 else 0
          have := hy.once id
          rw [hw id] at this
          rw [her, ← this]
          omega
        · obtain ⟨_, h1, _⟩ := ends_counts h id
          rw [h1, h.pending, h.next]
          show y.trace.countP _ + potential E id (y.pending.eraseIdx k) ≤ if id < y.next then _ else 0
          have := hy.sends id
          rw [hpot id] at this
          rw [her]
          omega
        · rw [h.next]
          exact hy.called id q ((ends_counts h id).2.2 id q hm)
      · refine ⟨fun id => ?_, fun id => ?_, fun id q hm => ?_⟩
        · obtain ⟨h1, _, _, h4, _⟩ := sends_counts h id
          rw [h1, h4, h.next]
          show y.trace.countP _ + (waits id (y.pending.eraseIdx k) + _) = if id < y.next then 1 else 0
          have := hy.once id
          rw [hw id] at this
          rw [her, ← this]
        · obtain ⟨_, h1, _, _, h5⟩ := sends_counts h id
          rw [h1, h5, h.next]
          show y.trace.countP _ + _ + (potential E id (y.pending.eraseIdx k) + _) ≤ if id < y.next then _ else 0
          have := hy.sends id
          rw [hpot id] at this
          have hstep := h.depth
          rw [her]
          split at this <;> split <;> omega
        · rw [h.next]
          exact hy.called id q ((sends_counts h id).2.2.1 id q hm)
  | timeout k =>
    show Counts E (y.onTimeout k)
    unfold Sys.onTimeout
    split
    · exact hy
    · next r hr =>
      obtain ⟨a, b, hab, her⟩ := erase_split hr
      have hw : ∀ id, waits id y.pending = waits id (a ++ b) + if r.id = id then 1 else 0 := by
        intro id
        rw [hab, waits_append, waits_cons, waits_append]
        omega
      have hpot : ∀ id, potential E id y.pending =
          potential E id (a ++ b) + if r.id = id then r.retry + 3 * (E.maxDepth - r.level.step) else 0 := by
        intro id
        rw [hab, potential_append, potential_cons, potential_append]
        omega
      dsimp only
      split
      · next hretry =>
        refine ⟨fun id => ?_, fun id => ?_, fun id q hm => ?_⟩
        · show (y.trace ++ [_]).countP _ + waits id (y.pending.eraseIdx k ++ [_]) = if id < y.next then 1 else 0
          rw [count_one, her, waits_append, waits_cons]
          have := hy.once id
          rw [hw id] at this
          rw [← this]
          simp [isEnd, waits]
        · show (y.trace ++ [_]).countP _ + potential E id (y.pending.eraseIdx k ++ [_]) ≤ if id < y.next then _ else 0
          rw [count_one, her, potential_append, potential_cons]
          have := hy.sends id
          rw [hpot id] at this
          refine Nat.le_trans ?_ this
          simp only [isSend, beq_iff_eq, potential, List.map_nil, List.sum_nil]
          split <;> omega
        · rcases List.mem_append.mp hm with hm | hm
          · exact hy.called id q hm
          · simp at hm
      · refine ⟨fun id => ?_, fun id => ?_, fun id q hm => ?_⟩
        · show (y.trace ++ [_]).countP _ + waits id (y.pending.eraseIdx k) = if id < y.next then 1 else 0
          rw [count_one, her]
          have := hy.once id
          rw [hw id] at this
          rw [← this]
          simp only [isEnd, beq_iff_eq]
          omega
        · show (y.trace ++ [_]).countP _ + potential E id (y.pending.eraseIdx k) ≤ if id < y.next then _ else 0
          rw [count_one, her]
          have := hy.sends id
          rw [hpot id] at this
          refine Nat.le_trans ?_ this
          simp only [isSend, Bool.false_eq_true, if_false]
          omega
        · rcases List.mem_append.mp hm with hm | hm
          · exact hy.called id q hm
          · simp at hm
  | resume k =>
    show Counts E (y.resume E k)
    unfold Sys.resume
    split
    · exact hy
    · dsimp only
      split
      · exact counts_congr hy rfl rfl rfl
      · refine counts_emit ?_ (.updateError _ _) (fun _ => rfl) (fun _ => rfl) (fun _ _ => by simp)
        exact counts_congr hy rfl rfl rfl
  | insert c =>
    show Counts E (match y.store.insert y.now c with
      | .error _ => y
      | .ok s => { y.emit (.inserted c) with store := s })
    split
    · exact hy
    · exact counts_congr (counts_emit hy (.inserted c) (fun _ => rfl) (fun _ => rfl) (fun _ _ => by simp)) rfl rfl rfl
  | clock t => exact counts_congr hy rfl rfl rfl
  | load c =>
    show Counts E (y.load E c)
    unfold Sys.load
    dsimp only
    obtain ⟨y1, r, h1⟩ : ∃ y1 r, loadAnchors E (c.get "validator/trust-anchor".toList) none
        { y with store := y.store.clear, fixed := [], timestamps := [], requiresVerification := true, config := c,
                 anchors := Store.new E.isSecurityV1, dirs := [] } = (y1, r) := ⟨_, _, rfl⟩
    obtain ⟨h2, h3, h4, _⟩ := loadAnchors_trace _ h1
    have := counts_congr hy h2 h4 h3
    rw [h1]
    cases r with
    | ok u => exact this
    | error e => exact counts_emit this (.loadError e) (fun _ => rfl) (fun _ => rfl) (fun _ _ => by simp)

theorem run_counts (es : List Event) : ∀ {y : Sys}, Counts E y → Counts E (run E y es) := by
  induction es with
  | nil => exact fun h => h
  | cons e es ih => exact fun h => ih (step_counts h e)

end PyNDN.ConfigPolicy
