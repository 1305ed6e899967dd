import Verif.Props.ValidatorPolicy
import Verif.Spec.Command
/-
The records of the command Interest policy.
-/
namespace PyNDN.Validator
open PyNDN PyNDN.Spec.Validator

/-- The record that a success inserts. -/
def recOf (V : Cfg) (p : Packet) : Option (Name × Nat) :=
  match V.command, p with
  | some _, .interest _ _ =>
    match parseCommandInterest p with
    | .ok x => some x
    | _ => none
  | _, _ => none

/-! ### The record of a session does not change -/

def OutRec (rec : Option (Name × Nat)) (p : Packet) : Out → Prop
  | .success s _ => s.record = rec ∧ s.packet = p
  | .fetch s _ => s.record = rec ∧ s.packet = p
  | _ => True

theorem verifyAll_rec {V : Cfg} {s : Session} {t : SData} : OutRec s.record s.packet (verifyAll V s t) := by
  unfold verifyAll
  split
  · trivial
  · trivial
  · split
    · trivial
    · exact ⟨rfl, rfl⟩
    · trivial

theorem requestCertificate_rec {V : Cfg} {now : Int} : ∀ (n : Nat) (st : Stores) (s : Session) (name : Name),
    V.maxDepth - s.chain.length ≤ n → OutRec s.record s.packet (requestCertificate V now st s name).2 := by
  intro n
  induction n with
  | zero =>
    intro st s name h
    unfold requestCertificate
    rw [if_pos (by omega)]
    trivial
  | succ n ih =>
    intro st s name h
    unfold requestCertificate
    split
    · trivial
    · split
      · trivial
      · dsimp only
        split
        · trivial
        · exact verifyAll_rec
        · split
          · trivial
          · exact ⟨rfl, rfl⟩
          · split
            · trivial
            · trivial
            · rename_i c _ _ _ _
              exact ih _ { s with chain := c :: s.chain, seen := name :: s.seen } _ (by simp; omega)
            · trivial

theorem validateCertificate_rec {V : Cfg} {now : Int} {st : Stores} {s : Session} {c : SData} :
    OutRec s.record s.packet (validateCertificate V now st s c).2 := by
  unfold validateCertificate
  split
  · trivial
  · trivial
  · exact requestCertificate_rec _ _ { s with chain := c :: s.chain } _ (Nat.le_refl _)
  · trivial

theorem continueFetch_rec {V : Cfg} {now : Int} {st : Stores} {s : Session} {c : SData} :
    OutRec s.record s.packet (continueFetch V now st s c).2 := by
  unfold continueFetch
  split
  · trivial
  · exact validateCertificate_rec

theorem onCertificate_rec {V : Cfg} {now : Int} {st : Stores} {s : Session} {c : SData} :
    OutRec s.record s.packet (onCertificate V now st s c).2 := by
  unfold onCertificate
  split
  · trivial
  · exact continueFetch_rec

theorem refetch_rec {V : Cfg} {now : Int} {st : Stores} {s : Session} {n : Name} {r : Int} :
    OutRec s.record s.packet (refetch V now st s n r).2 := by
  unfold refetch
  split
  · split
    · trivial
    · exact ⟨rfl, rfl⟩
    · exact continueFetch_rec
  · trivial

/-! ### The records -/

def grace (o : CommandOptions) : Int := max o.gracePeriod 0

/-- The call `id` was for a command and succeeded. -/
def Done (V : Cfg) (y : Sys) (id : Nat) (kl : Name) (ts : Nat) : Prop :=
  Ev.success id ∈ y.trace ∧ ∃ p, Ev.called id p ∈ y.trace ∧ recOf V p = some (kl, ts)

/-- A command that is in progress. -/
def Open (y : Sys) (hand : List (Nat × Name × Nat)) (id : Nat) (kl : Name) (ts : Nat) : Prop :=
  (∃ q ∈ y.pending, q.id = id ∧ q.session.record = some (kl, ts)) ∨
  (∃ f ∈ y.frames, f.id = id ∧ f.record = some (kl, ts)) ∨ (id, kl, ts) ∈ hand

structure CI (V : Cfg) (o : CommandOptions) (P : Name → Prop) (y : Sys) (hand : List (Nat × Name × Nat)) :
    Prop where
  pend : ∀ q ∈ y.pending, q.session.record = recOf V q.session.packet
  frames : ∀ f ∈ y.frames, ∀ x, f.record = some x → ∃ p, Ev.called f.id p ∈ y.trace ∧ recOf V p = some x
  openP : ∀ id kl ts, Open y hand id kl ts → P kl ∧ (ts : Int) ≤ y.now + grace o
  nodup : (y.records.map Record.keyName).Nodup
  recs : ∀ r ∈ y.records, P r.keyName ∧ (r.timestamp : Int) ≤ r.lastRefreshed + grace o ∧ r.lastRefreshed ≤ y.now
  cover : ∀ id kl ts, Done V y id kl ts → (∃ f ∈ y.frames, f.id = id ∧ f.record = some (kl, ts)) ∨
    (∃ r ∈ y.records, r.keyName = kl ∧ ts ≤ r.timestamp) ∨ (ts : Int) < y.now - grace o
  later : ∀ id kl ts, Open y hand id kl ts → ∀ id' ts', Done V y id' kl ts' → id' ≠ id → id' < id ∧ ts' < ts
  one : ∀ id kl ts id' ts', Open y hand id kl ts → Open y hand id' kl ts' → id = id' ∧ ts = ts'
  mono : ∀ id kl ts id' ts', Done V y id kl ts → Done V y id' kl ts' → id < id' → ts < ts'

/-- Only the records, the open commands, the done commands and the clock count. -/
theorem ci_congr {V : Cfg} {o : CommandOptions} {P : Name → Prop} {y y' : Sys} {hand : List (Nat × Name × Nat)}
    (h : CI V o P y hand) (h1 : y'.records = y.records) (h2 : y'.pending = y.pending)
    (h3 : y'.frames = y.frames) (h4 : y.now ≤ y'.now) (h5 : y.trace ⊆ y'.trace)
    (h6 : ∀ id kl ts, Done V y' id kl ts → Done V y id kl ts) : CI V o P y' hand := by
  have hopen : ∀ id kl ts, Open y' hand id kl ts → Open y hand id kl ts := by
    intro id kl ts ho
    unfold Open at ho ⊢
    rw [h2, h3] at ho
    exact ho
  refine ⟨?_, ?_, ?_, ?_, ?_, ?_, ?_, ?_, ?_⟩
  · rw [h2]; exact h.pend
  · rw [h3]
    intro f hf x hx
    obtain ⟨p, hp, hr⟩ := h.frames f hf x hx
    exact ⟨p, h5 hp, hr⟩
  · intro id kl ts ho
    obtain ⟨h7, h8⟩ := h.openP id kl ts (hopen _ _ _ ho)
    exact ⟨h7, by omega⟩
  · rw [h1]; exact h.nodup
  · rw [h1]
    intro r hr
    obtain ⟨h7, h8, h9⟩ := h.recs r hr
    exact ⟨h7, h8, by omega⟩
  · rw [h1, h3]
    intro id kl ts hd
    rcases h.cover id kl ts (h6 _ _ _ hd) with h7 | h7 | h7
    · exact .inl h7
    · exact .inr (.inl h7)
    · exact .inr (.inr (by omega))
  · intro id kl ts ho id' ts' hd hne
    exact h.later id kl ts (hopen _ _ _ ho) id' ts' (h6 _ _ _ hd) hne
  · intro id kl ts id' ts' ho ho'
    exact h.one id kl ts id' ts' (hopen _ _ _ ho) (hopen _ _ _ ho')
  · intro id kl ts id' ts' hd hd'
    exact h.mono id kl ts id' ts' (h6 _ _ _ hd) (h6 _ _ _ hd')

theorem done_emit {V : Cfg} {y : Sys} {e : Ev} (he : ∀ i, e ≠ .success i) (hc : ∀ i p, e ≠ .called i p)
    {id : Nat} {kl : Name} {ts : Nat} {y' : Sys} (ht : y'.trace = y.trace ++ [e]) (h : Done V y' id kl ts) :
    Done V y id kl ts := by
  obtain ⟨h1, p, h2, h3⟩ := h
  rw [ht] at h1 h2
  refine ⟨?_, p, ?_, h3⟩
  · rcases List.mem_append.1 h1 with h1 | h1
    · exact h1
    · exact absurd (List.mem_singleton.1 h1).symm (he id)
  · rcases List.mem_append.1 h2 with h2 | h2
    · exact h2
    · exact absurd (List.mem_singleton.1 h2).symm (hc id p)

/-- Add a frame without a record, and an event that is neither a success nor a call. -/
theorem ci_frame {V : Cfg} {o : CommandOptions} {P : Name → Prop} {y : Sys} {hand : List (Nat × Name × Nat)}
    (h : CI V o P y hand) {e : Ev} (he : ∀ i, e ≠ .success i) (hc : ∀ i p, e ≠ .called i p) (fs : List Frame)
    (hfs : ∀ f ∈ fs, f.record = none) :
    CI V o P { y.emit e with frames := y.frames ++ fs } [] := by
  have hd : ∀ id kl ts, Done V ({ y.emit e with frames := y.frames ++ fs } : Sys) id kl ts → Done V y id kl ts :=
    fun id kl ts h => done_emit he hc rfl h
  have hopen : ∀ id kl ts, Open ({ y.emit e with frames := y.frames ++ fs } : Sys) [] id kl ts →
      Open y hand id kl ts := by
    intro id kl ts ho
    rcases ho with ho | ⟨f, hf, hi, hr⟩ | ho
    · exact .inl ho
    · rcases List.mem_append.1 hf with hf | hf
      · exact .inr (.inl ⟨f, hf, hi, hr⟩)
      · rw [hfs f hf] at hr; cases hr
    · cases ho
  refine ⟨h.pend, ?_, ?_, h.nodup, h.recs, ?_, ?_, ?_, ?_⟩
  · intro f hf x hx
    rcases List.mem_append.1 hf with hf | hf
    · obtain ⟨p, hp, hr⟩ := h.frames f hf x hx
      exact ⟨p, sub_emit _ _ hp, hr⟩
    · rw [hfs f hf] at hx; cases hx
  · intro id kl ts ho
    exact h.openP id kl ts (hopen _ _ _ ho)
  · intro id kl ts hdn
    rcases h.cover id kl ts (hd _ _ _ hdn) with ⟨f, hf, h7⟩ | h7
    · exact .inl ⟨f, List.mem_append_left _ hf, h7⟩
    · exact .inr h7
  · intro id kl ts ho id' ts' hdn hne
    exact h.later id kl ts (hopen _ _ _ ho) id' ts' (hd _ _ _ hdn) hne
  · intro id kl ts id' ts' ho ho'
    exact h.one id kl ts id' ts' (hopen _ _ _ ho) (hopen _ _ _ ho')
  · intro id kl ts id' ts' hdn hdn'
    exact h.mono id kl ts id' ts' (hd _ _ _ hdn) (hd _ _ _ hdn')

/-- The command in hand. -/
def handOf (id : Nat) (rec : Option (Name × Nat)) : List (Nat × Name × Nat) :=
  match rec with
  | some (kl, ts) => [(id, kl, ts)]
  | none => []

theorem mem_handOf {id id' : Nat} {rec : Option (Name × Nat)} {kl : Name} {ts : Nat} :
    (id', kl, ts) ∈ handOf id rec ↔ id' = id ∧ rec = some (kl, ts) := by
  unfold handOf
  cases rec with
  | none => simp
  | some x => simp [Prod.ext_iff, eq_comm, and_assoc]

theorem ci_success {V : Cfg} {o : CommandOptions} {P : Name → Prop} {y : Sys} {id : Nat} {p : Packet}
    {rec : Option (Name × Nat)} (h : CI V o P y (handOf id rec)) (hc : Ev.called id p ∈ y.trace)
    (hu : ∀ q, Ev.called id q ∈ y.trace → q = p) (hrec : recOf V p = rec)
    (hn : Ev.success id ∉ y.trace) (cache : List SData) (async : Bool) :
    CI V o P { y.emit (.success id) with frames := y.frames ++ [⟨id, true, rec, cache, async⟩] } [] := by
  have hd : ∀ i kl ts,
      Done V ({ y.emit (.success id) with frames := y.frames ++ [⟨id, true, rec, cache, async⟩] } : Sys) i kl ts →
      Done V y i kl ts ∨ (i = id ∧ rec = some (kl, ts)) := by
    rintro i kl ts ⟨h1, q, h2, h3⟩
    have h2' : Ev.called i q ∈ y.trace := by
      rcases List.mem_append.1 h2 with h2 | h2
      · exact h2
      · cases List.mem_singleton.1 h2
    rcases List.mem_append.1 h1 with h1 | h1
    · exact .inl ⟨h1, q, h2', h3⟩
    · cases List.mem_singleton.1 h1
      have := hu q h2'
      subst this
      exact .inr ⟨rfl, by rw [← hrec, h3]⟩
  have hopen : ∀ i kl ts,
      Open ({ y.emit (.success id) with frames := y.frames ++ [⟨id, true, rec, cache, async⟩] } : Sys) [] i kl ts →
      Open y (handOf id rec) i kl ts := by
    intro i kl ts ho
    rcases ho with ho | ⟨f, hf, hi, hr⟩ | ho
    · exact .inl ho
    · rcases List.mem_append.1 hf with hf | hf
      · exact .inr (.inl ⟨f, hf, hi, hr⟩)
      · cases List.mem_singleton.1 hf
        exact .inr (.inr (mem_handOf.2 ⟨hi.symm, hr⟩))
    · cases ho
  have hhand : ∀ kl ts, rec = some (kl, ts) → Open y (handOf id rec) id kl ts :=
    fun kl ts hr => .inr (.inr (mem_handOf.2 ⟨rfl, hr⟩))
  refine ⟨h.pend, ?_, ?_, h.nodup, h.recs, ?_, ?_, ?_, ?_⟩
  · intro f hf x hx
    rcases List.mem_append.1 hf with hf | hf
    · obtain ⟨q, hp, hr⟩ := h.frames f hf x hx
      exact ⟨q, sub_emit _ _ hp, hr⟩
    · cases List.mem_singleton.1 hf
      exact ⟨p, sub_emit _ _ hc, by rw [hrec]; exact hx⟩
  · intro i kl ts ho
    exact h.openP i kl ts (hopen _ _ _ ho)
  · intro i kl ts hdn
    rcases hd i kl ts hdn with hdn | ⟨rfl, hr⟩
    · rcases h.cover i kl ts hdn with ⟨f, hf, h7⟩ | h7
      · exact .inl ⟨f, List.mem_append_left _ hf, h7⟩
      · exact .inr h7
    · exact .inl ⟨_, List.mem_append_right _ (List.mem_singleton.2 rfl), rfl, hr⟩
  · intro i kl ts ho i' ts' hdn hne
    rcases hd i' kl ts' hdn with hdn | ⟨rfl, hr⟩
    · exact h.later i kl ts (hopen _ _ _ ho) i' ts' hdn hne
    · exact absurd (h.one _ _ _ _ _ (hhand kl ts' hr) (hopen _ _ _ ho)).1 hne
  · intro i kl ts i' ts' ho ho'
    exact h.one i kl ts i' ts' (hopen _ _ _ ho) (hopen _ _ _ ho')
  · intro i kl ts i' ts' hdn hdn' hlt
    rcases hd i kl ts hdn with h1 | ⟨rfl, hr⟩
    · rcases hd i' kl ts' hdn' with h2 | ⟨rfl, hr'⟩
      · exact h.mono i kl ts i' ts' h1 h2 hlt
      · exact (h.later _ kl ts' (hhand kl ts' hr') i ts h1 (by omega)).2
    · rcases hd i' kl ts' hdn' with h2 | ⟨rfl, hr'⟩
      · have := (h.later _ kl ts (hhand kl ts hr) i' ts' h2 (by omega)).1
        omega
      · omega

theorem ci_fetch {V : Cfg} {o : CommandOptions} {P : Name → Prop} {y : Sys} {id : Nat} {s : Session}
    {rec : Option (Name × Nat)} (h : CI V o P y (handOf id rec)) (hs : s.record = rec)
    (hrec : recOf V s.packet = rec) (name : Name) (r : Int) :
    CI V o P { y.emit (.express id name) with pending := y.pending ++ [⟨id, s, name, r⟩] } [] := by
  have hd : ∀ i kl ts,
      Done V ({ y.emit (.express id name) with pending := y.pending ++ [⟨id, s, name, r⟩] } : Sys) i kl ts →
      Done V y i kl ts := fun i kl ts h => done_emit (fun _ => by simp) (fun _ _ => by simp) rfl h
  have hopen : ∀ i kl ts,
      Open ({ y.emit (.express id name) with pending := y.pending ++ [⟨id, s, name, r⟩] } : Sys) [] i kl ts →
      Open y (handOf id rec) i kl ts := by
    intro i kl ts ho
    rcases ho with ⟨q, hq, hi, hr⟩ | ho | ho
    · rcases List.mem_append.1 hq with hq | hq
      · exact .inl ⟨q, hq, hi, hr⟩
      · cases List.mem_singleton.1 hq
        exact .inr (.inr (mem_handOf.2 ⟨hi.symm, by rw [← hs]; exact hr⟩))
    · exact .inr (.inl ho)
    · cases ho
  refine ⟨?_, ?_, ?_, h.nodup, h.recs, ?_, ?_, ?_, ?_⟩
  · intro q hq
    rcases List.mem_append.1 hq with hq | hq
    · exact h.pend q hq
    · cases List.mem_singleton.1 hq
      exact hs.trans hrec.symm
  · intro f hf x hx
    obtain ⟨p, hp, hr⟩ := h.frames f hf x hx
    exact ⟨p, sub_emit _ _ hp, hr⟩
  · intro i kl ts ho
    exact h.openP i kl ts (hopen _ _ _ ho)
  · intro i kl ts hdn
    exact h.cover i kl ts (hd _ _ _ hdn)
  · intro i kl ts ho i' ts' hdn hne
    exact h.later i kl ts (hopen _ _ _ ho) i' ts' (hd _ _ _ hdn) hne
  · intro i kl ts i' ts' ho ho'
    exact h.one i kl ts i' ts' (hopen _ _ _ ho) (hopen _ _ _ ho')
  · intro i kl ts i' ts' hdn hdn'
    exact h.mono i kl ts i' ts' (hd _ _ _ hdn) (hd _ _ _ hdn')

/-- The end of a call, or the sending of an Interest for it. -/
theorem ci_conclude {V : Cfg} {o : CommandOptions} {P : Name → Prop} {y : Sys} {id : Nat} {p : Packet}
    {rec : Option (Name × Nat)} (h : CI V o P y (handOf id rec)) (hc : Ev.called id p ∈ y.trace)
    (hu : ∀ q, Ev.called id q ∈ y.trace → q = p) (hn : Ev.success id ∉ y.trace)
    (async ok : Bool) (r : Int) (out : Out) (ho : OutRec rec p out)
    (hrec : (∀ s c, out = .success s c → recOf V p = rec) ∧ (∀ s c, out = .fetch s c → recOf V p = rec)) :
    CI V o P (y.conclude V id async ok r out) [] := by
  have hfail : ∀ a e c, CI V o P (y.fail id a e c) [] := by
    intro a e c
    exact ci_frame h (e := .failure id e) (fun _ => by simp) (fun _ _ => by simp) _ (by simp)
  have hemit : ∀ e : Ev, (∀ i, e ≠ .success i) → (∀ i p, e ≠ .called i p) → CI V o P (y.emit e) [] := by
    intro e h1 h2
    rw [emit_frames]
    exact ci_frame h h1 h2 [] (by simp)
  cases out with
  | success s c =>
    have := ci_success h hc hu (hrec.1 s c rfl) hn c async
    rw [← ho.1] at this
    exact this
  | fail s e c => exact hfail _ _ _
  | raise s e =>
    simp only [Sys.conclude]
    split
    · exact hfail _ _ _
    · exact hemit _ (fun _ => by simp) (fun _ _ => by simp)
  | silent s => exact hemit _ (fun _ => by simp) (fun _ _ => by simp)
  | fetch s n =>
    simp only [Sys.conclude]
    split
    · exact hfail _ _ _
    · exact ci_fetch h ho.1 (by rw [ho.2]; exact hrec.2 s n rfl) n r

/-! ### Cleaning up, inserting -/

theorem cleanUp_sub {o : CommandOptions} {now : Int} : ∀ (rs : List Record), (cleanUp o now rs).Sublist rs
  | [] => List.Sublist.refl _
  | r :: rs => by
    unfold cleanUp
    split
    · exact (cleanUp_sub rs).cons r
    · exact List.Sublist.refl _

/-- Without an eviction for lack of room, only records that are too old are removed. -/
theorem cleanUp_keep {o : CommandOptions} {now : Int} {P : Name → Prop}
    (hroom : ∀ rs : List Record, (rs.map Record.keyName).Nodup → (∀ r ∈ rs, P r.keyName) →
      ¬ (0 ≤ o.maxRecords ∧ (rs.length : Int) > o.maxRecords)) :
    ∀ (rs : List Record), (rs.map Record.keyName).Nodup → (∀ r ∈ rs, P r.keyName) → ∀ r ∈ rs,
      r ∈ cleanUp o now rs ∨ r.lastRefreshed ≤ now - o.recordLifetime
  | [], _, _, r, hr => by cases hr
  | x :: rs, hn, hP, r, hr => by
    unfold cleanUp
    split
    · rename_i hc
      rcases List.mem_cons.1 hr with rfl | hr
      · rcases hc with hc | hc
        · exact .inr hc
        · exact absurd hc (hroom _ hn hP)
      · rw [List.map_cons, List.nodup_cons] at hn
        exact cleanUp_keep hroom rs hn.2 (fun r h => hP r (List.mem_cons_of_mem _ h)) r hr
    · exact .inl hr

theorem findRecord_mem {kl : Name} {rs : List Record} {r : Record} (hn : (rs.map Record.keyName).Nodup)
    (hr : r ∈ rs) (hk : r.keyName = kl) : findRecord kl rs = some r := by
  unfold findRecord
  induction rs with
  | nil => cases hr
  | cons x rs ih =>
    rw [List.map_cons, List.nodup_cons] at hn
    rw [List.find?_cons]
    rcases List.mem_cons.1 hr with rfl | hr
    · rw [(name_equals_iff _ _).2 hk]
    · have : ¬ x.keyName.equals kl = true := by
        rw [name_equals_iff]
        intro e
        exact hn.1 (List.mem_map.2 ⟨r, hr, by rw [hk, e]⟩)
      rw [Bool.eq_false_iff.2 this]
      exact ih hn.2 hr

theorem popRecord_mem {kl : Name} : ∀ {rs : List Record} {r : Record}, (rs.map Record.keyName).Nodup →
    (r ∈ popRecord kl rs ↔ r ∈ rs ∧ r.keyName ≠ kl)
  | [], r, _ => by simp [popRecord]
  | x :: rs, r, hn => by
    rw [List.map_cons, List.nodup_cons] at hn
    unfold popRecord
    split
    · rename_i he
      rw [name_equals_iff] at he
      subst he
      constructor
      · intro h
        exact ⟨List.mem_cons_of_mem _ h, fun e => hn.1 (List.mem_map.2 ⟨r, h, e⟩)⟩
      · rintro ⟨h1, h2⟩
        rcases List.mem_cons.1 h1 with rfl | h1
        · exact absurd rfl h2
        · exact h1
    · rename_i he
      rw [name_equals_iff] at he
      rw [List.mem_cons, List.mem_cons, popRecord_mem hn.2]
      constructor
      · rintro (rfl | ⟨h1, h2⟩)
        · exact ⟨.inl rfl, he⟩
        · exact ⟨.inr h1, h2⟩
      · rintro ⟨rfl | h1, h2⟩
        · exact .inl rfl
        · exact .inr ⟨h1, h2⟩

theorem popRecord_sub {kl : Name} : ∀ (rs : List Record), (popRecord kl rs).Sublist rs
  | [] => List.Sublist.refl _
  | x :: rs => by
    unfold popRecord
    split
    · exact List.sublist_cons_self x rs
    · exact (popRecord_sub rs).cons_cons x

theorem insertRecord_nodup {now : Int} {kl : Name} {ts : Nat} {rs : List Record}
    (hn : (rs.map Record.keyName).Nodup) : ((insertRecord now kl ts rs).map Record.keyName).Nodup := by
  unfold insertRecord
  rw [List.map_append, List.nodup_append]
  refine ⟨((popRecord_sub rs).map _).nodup hn, by simp, ?_⟩
  intro a ha b hb e
  simp at hb
  subst hb
  subst e
  obtain ⟨r, hr, hk⟩ := List.mem_map.1 ha
  exact ((popRecord_mem hn).1 hr).2 hk

/-! ### The steps -/

/-- A call that did not end has not succeeded. -/
theorem inv_open {V : Cfg} {y : Sys} (h : Inv V y) {k : Nat} {q : Pending} (hk : y.pending[k]? = some q) :
    Ev.success q.id ∉ y.trace := by
  intro hs
  have h1 := h.acc q.id
  have h2 : 0 < y.pending.countP (fun p => p.id == q.id) :=
    List.countP_pos_iff.2 ⟨q, List.mem_of_getElem? hk, by simp⟩
  have h3 : 0 < ends q.id y.trace := List.countP_pos_iff.2 ⟨_, hs, by simp [isEnd]⟩
  have h5 : opened y.next q.id ≤ 1 := by unfold opened; split <;> omega
  omega

theorem inv_next {V : Cfg} {y : Sys} (h : Inv V y) : Ev.success y.next ∉ y.trace := by
  intro hs
  have h1 := h.acc y.next
  have h3 : 0 < ends y.next y.trace := List.countP_pos_iff.2 ⟨_, hs, by simp [isEnd]⟩
  have h5 : opened y.next y.next = 0 := by unfold opened; simp
  omega

/-- Take a request in hand. -/
theorem ci_take {V : Cfg} {o : CommandOptions} {P : Name → Prop} {y : Sys} (h : CI V o P y []) {k : Nat}
    {q : Pending} (hk : y.pending[k]? = some q) (st : Stores) :
    CI V o P { y with pending := y.pending.eraseIdx k, st := st } (handOf q.id q.session.record) := by
  have hq := List.mem_of_getElem? hk
  have hopen : ∀ i kl ts,
      Open ({ y with pending := y.pending.eraseIdx k, st := st } : Sys) (handOf q.id q.session.record) i kl ts →
      Open y [] i kl ts := by
    intro i kl ts ho
    rcases ho with ⟨r, hr, h1, h2⟩ | ho | ho
    · exact .inl ⟨r, (List.eraseIdx_sublist _ _).subset hr, h1, h2⟩
    · exact .inr (.inl ho)
    · obtain ⟨rfl, h2⟩ := mem_handOf.1 ho
      exact .inl ⟨q, hq, rfl, h2⟩
  refine ⟨?_, h.frames, ?_, h.nodup, h.recs, h.cover, ?_, ?_, h.mono⟩
  · intro r hr
    exact h.pend r ((List.eraseIdx_sublist _ _).subset hr)
  · intro i kl ts ho
    exact h.openP i kl ts (hopen _ _ _ ho)
  · intro i kl ts ho
    exact h.later i kl ts (hopen _ _ _ ho)
  · intro i kl ts i' ts' ho ho'
    exact h.one i kl ts i' ts' (hopen _ _ _ ho) (hopen _ _ _ ho')

theorem ci_onData {V : Cfg} {o : CommandOptions} {P : Name → Prop} {y : Sys} (hi : Inv V y) (h : CI V o P y [])
    (k : Nat) (d : SData) (ok : Bool) : CI V o P (y.onData V k d ok) [] := by
  unfold Sys.onData
  split
  · exact h
  · rename_i q hk
    split
    · dsimp only
      have hc := (hi.pend q (List.mem_of_getElem? hk)).1
      have hr := h.pend q (List.mem_of_getElem? hk)
      refine ci_conclude (p := q.session.packet) (rec := q.session.record) (ci_take h hk _) hc
        (fun r hr => hi.uniq _ _ _ hr hc) (inv_open hi hk) _ _ _ _ onCertificate_rec ?_
      exact ⟨fun _ _ _ => hr.symm, fun _ _ _ => hr.symm⟩
    · exact h

theorem ci_onTimeout {V : Cfg} {o : CommandOptions} {P : Name → Prop} {y : Sys} (hi : Inv V y) (h : CI V o P y [])
    (k : Nat) (ok : Bool) : CI V o P (y.onTimeout V k ok) [] := by
  unfold Sys.onTimeout
  split
  · exact h
  · rename_i q hk
    dsimp only
    have hc := (hi.pend q (List.mem_of_getElem? hk)).1
    have hr := h.pend q (List.mem_of_getElem? hk)
    refine ci_conclude (p := q.session.packet) (rec := q.session.record) (ci_take h hk _) hc
      (fun r hr => hi.uniq _ _ _ hr hc) (inv_open hi hk) _ _ _ _ refetch_rec ?_
    exact ⟨fun _ _ _ => hr.symm, fun _ _ _ => hr.symm⟩

/-- A success callback returns, and the record is inserted. -/
theorem ci_record {V : Cfg} {o : CommandOptions} {P : Name → Prop} {y : Sys} (hi : Inv V y) (h : CI V o P y []) {k : Nat}
    {f : Frame} (hk : y.frames[k]? = some f) :
    CI V o P ({ y with frames := y.frames.eraseIdx k }.addRecord f.record) [] := by
  have hf := List.mem_of_getElem? hk
  have hsub : ∀ g ∈ y.frames.eraseIdx k, g ∈ y.frames := fun g hg => (List.eraseIdx_sublist _ _).subset hg
  have hback : ∀ g ∈ y.frames, g = f ∨ g ∈ y.frames.eraseIdx k := by
    intro g hg
    obtain ⟨j, hj, rfl⟩ := List.getElem_of_mem hg
    by_cases hjk : j = k
    · left
      subst hjk
      rw [List.getElem?_eq_getElem hj] at hk
      exact (Option.some.inj hk)
    · right
      rw [List.mem_eraseIdx_iff_getElem]
      exact ⟨j, hj, hjk, rfl⟩
  have hopen : ∀ rs i kl ts,
      Open ({ y with frames := y.frames.eraseIdx k, records := rs } : Sys) [] i kl ts → Open y [] i kl ts := by
    intro rs i kl ts ho
    rcases ho with ho | ⟨g, hg, h1⟩ | ho
    · exact .inl ho
    · exact .inr (.inl ⟨g, hsub g hg, h1⟩)
    · cases ho
  cases hr : f.record with
  | none =>
    refine ⟨h.pend, fun g hg => h.frames g (hsub g hg), fun i kl ts ho => h.openP i kl ts (hopen _ _ _ _ ho),
      h.nodup, h.recs, ?_, fun i kl ts ho => h.later i kl ts (hopen _ _ _ _ ho),
      fun i kl ts i' ts' ho ho' => h.one i kl ts i' ts' (hopen _ _ _ _ ho) (hopen _ _ _ _ ho'), h.mono⟩
    intro i kl ts hd
    rcases h.cover i kl ts hd with ⟨g, hg, h1, h2⟩ | h1
    · rcases hback g hg with rfl | hg
      · rw [hr] at h2; cases h2
      · exact .inl ⟨g, hg, h1, h2⟩
    · exact .inr h1
  | some x =>
    obtain ⟨kl, ts⟩ := x
    have hfo : Open y [] f.id kl ts := .inr (.inl ⟨f, hf, rfl, hr⟩)
    obtain ⟨hP, hts⟩ := h.openP _ _ _ hfo
    refine ⟨h.pend, fun g hg => h.frames g (hsub g hg), fun i kl ts ho => h.openP i kl ts (hopen _ _ _ _ ho),
      insertRecord_nodup h.nodup, ?_, ?_, fun i kl ts ho => h.later i kl ts (hopen _ _ _ _ ho),
      fun i kl ts i' ts' ho ho' => h.one i kl ts i' ts' (hopen _ _ _ _ ho) (hopen _ _ _ _ ho'), h.mono⟩
    · intro r hm
      simp only [Sys.addRecord, insertRecord] at hm
      rcases List.mem_append.1 hm with hm | hm
      · exact h.recs r ((popRecord_mem h.nodup).1 hm).1
      · cases List.mem_singleton.1 hm
        exact ⟨hP, hts, Int.le_refl _⟩
    · intro i kl' ts' hd
      have hnew : ⟨kl, ts, y.now⟩ ∈ insertRecord y.now kl ts y.records := by simp [insertRecord]
      by_cases hkl : kl' = kl
      · subst hkl
        refine .inr (.inl ⟨_, hnew, rfl, ?_⟩)
        show ts' ≤ ts
        by_cases hid : i = f.id
        · subst hid
          obtain ⟨p, hp, hrp⟩ := h.frames f hf _ hr
          obtain ⟨_, q, hq, hrq⟩ := hd
          rw [hi.uniq _ _ _ hp hq, hrq] at hrp
          cases hrp
          exact Nat.le_refl _
        · exact Nat.le_of_lt (h.later _ _ _ hfo i ts' hd hid).2
      · rcases h.cover i kl' ts' hd with ⟨g, hg, h1, h2⟩ | ⟨r, hm, h1, h2⟩ | h1
        · rcases hback g hg with rfl | hg
          · rw [hr] at h2
            cases h2
            exact absurd rfl hkl
          · exact .inl ⟨g, hg, h1, h2⟩
        · refine .inr (.inl ⟨r, ?_, h1, h2⟩)
          simp only [Sys.addRecord, insertRecord]
          exact List.mem_append_left _ ((popRecord_mem h.nodup).2 ⟨hm, by rw [h1]; exact hkl⟩)
        · exact .inr (.inr h1)

theorem ci_resume {V : Cfg} {o : CommandOptions} {P : Name → Prop} {y : Sys} (hi : Inv V y) (h : CI V o P y [])
    (k : Nat) : CI V o P (y.resume k) [] := by
  unfold Sys.resume
  split
  · exact h
  · rename_i f hk
    have hrec := ci_record hi h hk
    dsimp only
    generalize ({ y with frames := y.frames.eraseIdx k } : Sys).addRecord f.record = z at hrec
    have hraise : ∀ (z : Sys) (e : Err), CI V o P z [] →
        CI V o P (if f.async then z.fail f.id true .cannotRetrieve [] else z.emit (.raised f.id e)) [] := by
      intro z e hz
      split
      · exact ci_frame hz (e := .failure f.id .cannotRetrieve) (fun _ => by simp) (fun _ _ => by simp) _ (by simp)
      · rw [emit_frames]
        exact ci_frame hz (fun _ => by simp) (fun _ _ => by simp) [] (by simp)
    split
    · exact hraise z _ hrec
    · have hz : CI V o P { z with
          outcomes := (f.id, f.outcome) :: z.outcomes
          st := { z.st with verified := (cacheAll z.now z.st.verified f.cache).1 } } [] :=
        ci_congr hrec rfl rfl rfl (Int.le_refl _) (fun _ h => h) (fun _ _ _ h => h)
      split
      · exact hz
      · exact hraise _ _ hz

theorem recOf_parse {V : Cfg} {o : CommandOptions} (hV : V.command = some o) {i : Interest} {s : Except Err Bytes}
    {kl : Name} {ts : Nat} :
    parseCommandInterest (.interest i s) = .ok (kl, ts) ↔ recOf V (.interest i s) = some (kl, ts) := by
  unfold recOf
  rw [hV]
  dsimp only
  split
  · rename_i x h
    rw [h]
    simp
  · rename_i h
    constructor
    · intro h'
      exact absurd h' (h _)
    · intro h'; cases h'

/-- What `checkOriginal` found out about the packet. -/
theorem checkOriginal_rec {V : Cfg} {o : CommandOptions} (hV : V.command = some o) {now : Int}
    {rs rs' : List Record} {p : Packet} {res : Res (Option (Name × Nat) × Decision)}
    (h : checkOriginal V now rs p = (rs', res)) :
    (rs' = rs ∨ rs' = cleanUp o now rs) ∧
    ∀ rec d, res = .ok (rec, d) → recOf V p = rec ∧
      ∀ kl ts, rec = some (kl, ts) → rs' = cleanUp o now rs ∧ now - grace o ≤ ts ∧ (ts : Int) ≤ now + grace o ∧
        ∀ r, findRecord kl rs' = some r → r.timestamp < ts := by
  unfold checkOriginal at h
  rw [hV] at h
  cases p with
  | data d =>
    dsimp only at h
    cases h
    refine ⟨.inl rfl, ?_⟩
    intro rec d' hok
    obtain ⟨d'', _, h2⟩ := res_bind_ok hok
    cases h2
    exact ⟨by unfold recOf; rw [hV], fun kl ts h => by cases h⟩
  | interest i s =>
    dsimp only at h
    cases hp : parseCommandInterest (.interest i s) with
    | fail e => rw [hp] at h; cases h; exact ⟨.inl rfl, fun rec d h => by cases h⟩
    | raise e => rw [hp] at h; cases h; exact ⟨.inl rfl, fun rec d h => by cases h⟩
    | ok x =>
      obtain ⟨kl, ts⟩ := x
      rw [hp] at h
      dsimp only at h
      cases h
      refine ⟨.inr rfl, ?_⟩
      intro rec d hok
      obtain ⟨u, h1, h2⟩ := res_bind_ok hok
      obtain ⟨d', h3, h4⟩ := res_bind_ok h2
      cases h4
      refine ⟨(recOf_parse hV).1 hp, ?_⟩
      intro kl' ts' he
      cases he
      unfold checkTimestamp at h1
      split at h1
      · cases h1
      · rename_i hg
        have hg1 : now - grace o ≤ ts ∧ (ts : Int) ≤ now + grace o := by
          unfold grace
          omega
        refine ⟨rfl, hg1.1, hg1.2, ?_⟩
        intro r hr
        rw [hr] at h1
        dsimp only at h1
        split at h1
        · cases h1
        · omega

theorem ci_validate {V : Cfg} {o : CommandOptions} (hV : V.command = some o) {P : Name → Prop}
    (hlife : 2 * grace o < o.recordLifetime)
    (hroom : ∀ rs : List Record, (rs.map Record.keyName).Nodup → (∀ r ∈ rs, P r.keyName) →
      ¬ (0 ≤ o.maxRecords ∧ (rs.length : Int) > o.maxRecords))
    {y : Sys} (hi : Inv V y) (h : CI V o P y []) (p : Packet) (ok : Bool)
    (hP : ∀ kl ts, recOf V p = some (kl, ts) → P kl)
    (hturn : ∀ kl ts, recOf V p = some (kl, ts) → ∀ id ts', ¬ Open y [] id kl ts') :
    CI V o P (y.validate V p ok) [] := by
  unfold Sys.validate
  dsimp only
  have hnext := inv_next hi
  have hcalls : ∀ q, Ev.called y.next q ∉ y.trace := by
    intro q hq
    have := hi.calls _ _ hq
    omega
  cases hco : checkOriginal V y.now y.records p with
  | mk rs res =>
    have hco' : checkOriginal V ({ y.emit (.called y.next p) with next := y.next + 1 } : Sys).now
        ({ y.emit (.called y.next p) with next := y.next + 1 } : Sys).records p = (rs, res) := hco
    rw [hco']
    dsimp only
    obtain ⟨hrs, hrec⟩ := checkOriginal_rec hV hco
    -- the records after cleaning up
    have hsub : rs.Sublist y.records := by
      rcases hrs with rfl | rfl
      · exact List.Sublist.refl _
      · exact cleanUp_sub _
    have hkeep : ∀ r ∈ y.records, r ∈ rs ∨ r.lastRefreshed ≤ y.now - o.recordLifetime := by
      intro r hr
      rcases hrs with rfl | rfl
      · exact .inl hr
      · exact cleanUp_keep hroom _ h.nodup (fun r hr => (h.recs r hr).1) r hr
    have hdone : ∀ st i kl ts, Done V ({ y.emit (.called y.next p) with
        next := y.next + 1, records := rs, st := st } : Sys) i kl ts → Done V y i kl ts := by
      rintro st i kl ts ⟨h1, q, h2, h3⟩
      have h1' : Ev.success i ∈ y.trace := by
        rcases List.mem_append.1 h1 with h1 | h1
        · exact h1
        · cases List.mem_singleton.1 h1
      refine ⟨h1', q, ?_, h3⟩
      rcases List.mem_append.1 h2 with h2 | h2
      · exact h2
      · cases List.mem_singleton.1 h2
        exact absurd h1' hnext
    have hbase : ∀ (st : Stores) (rec : Option (Name × Nat)), (∀ kl ts, rec = some (kl, ts) → P kl ∧ (ts : Int) ≤ y.now + grace o ∧
        (∀ id' ts', Done V y id' kl ts' → ts' < ts) ∧ ∀ id ts', ¬ Open y [] id kl ts') →
        CI V o P { y.emit (.called y.next p) with next := y.next + 1, records := rs, st := st }
          (handOf y.next rec) := by
      intro st rec hr
      have hopen : ∀ i kl ts, Open ({ y.emit (.called y.next p) with
          next := y.next + 1, records := rs, st := st } : Sys) (handOf y.next rec) i kl ts →
          Open y [] i kl ts ∨ (i = y.next ∧ rec = some (kl, ts)) := by
        intro i kl ts ho
        rcases ho with ho | ho | ho
        · exact .inl (.inl ho)
        · exact .inl (.inr (.inl ho))
        · exact .inr (mem_handOf.1 ho)
      have hlt : ∀ i kl ts, Done V y i kl ts → i < y.next := by
        rintro i kl ts ⟨_, q, hq, _⟩
        exact hi.calls _ _ hq
      refine ⟨h.pend, ?_, ?_, (hsub.map _).nodup h.nodup, ?_, ?_, ?_, ?_, ?_⟩
      · intro f hf x hx
        obtain ⟨q, hq, hr⟩ := h.frames f hf x hx
        exact ⟨q, sub_emit _ _ hq, hr⟩
      · intro i kl ts ho
        rcases hopen i kl ts ho with ho | ⟨_, h1⟩
        · exact h.openP i kl ts ho
        · exact ⟨(hr kl ts h1).1, (hr kl ts h1).2.1⟩
      · intro r hm
        exact h.recs r (hsub.subset hm)
      · intro i kl ts hd
        rcases h.cover i kl ts (hdone _ _ _ _ hd) with h1 | ⟨r, hm, h1, h2⟩ | h1
        · exact .inl h1
        · rcases hkeep r hm with h3 | h3
          · exact .inr (.inl ⟨r, h3, h1, h2⟩)
          · refine .inr (.inr ?_)
            have := (h.recs r hm).2.1
            show (ts : Int) < y.now - grace o
            omega
        · exact .inr (.inr h1)
      · intro i kl ts ho i' ts' hd hne
        have hd' := hdone _ _ _ _ hd
        rcases hopen i kl ts ho with ho | ⟨rfl, h1⟩
        · exact h.later i kl ts ho i' ts' hd' hne
        · exact ⟨hlt _ _ _ hd', (hr kl ts h1).2.2.1 i' ts' hd'⟩
      · intro i kl ts i' ts' ho ho'
        rcases hopen i kl ts ho with h1 | ⟨rfl, h1⟩
        · rcases hopen i' kl ts' ho' with h2 | ⟨rfl, h2⟩
          · exact h.one i kl ts i' ts' h1 h2
          · exact absurd h1 ((hr kl ts' h2).2.2.2 i ts)
        · rcases hopen i' kl ts' ho' with h2 | ⟨rfl, h2⟩
          · exact absurd h2 ((hr kl ts h1).2.2.2 i' ts')
          · rw [h1] at h2
            cases h2
            exact ⟨rfl, rfl⟩
      · intro i kl ts i' ts' hd hd'
        exact h.mono i kl ts i' ts' (hdone _ _ _ _ hd) (hdone _ _ _ _ hd')
    have hcall : ∀ st, Ev.called y.next p ∈
        ({ y.emit (.called y.next p) with next := y.next + 1, records := rs, st := st } : Sys).trace := by
      intro st; simp [Sys.emit]
    have huniq : ∀ st q, Ev.called y.next q ∈
        ({ y.emit (.called y.next p) with next := y.next + 1, records := rs, st := st } : Sys).trace → q = p := by
      intro st q hq
      rcases List.mem_append.1 hq with hq | hq
      · exact absurd hq (hcalls q)
      · cases List.mem_singleton.1 hq
        rfl
    have hsucc : ∀ st, Ev.success y.next ∉
        ({ y.emit (.called y.next p) with next := y.next + 1, records := rs, st := st } : Sys).trace := by
      intro st hs
      rcases List.mem_append.1 hs with hs | hs
      · exact hnext hs
      · cases List.mem_singleton.1 hs
    have hgood : ∀ rec d, res = .ok (rec, d) → ∀ kl ts, rec = some (kl, ts) → P kl ∧
        (ts : Int) ≤ y.now + grace o ∧ (∀ id' ts', Done V y id' kl ts' → ts' < ts) ∧
        ∀ id ts', ¬ Open y [] id kl ts' := by
      intro rec d hr kl ts hkt
      obtain ⟨h1, h2⟩ := hrec rec d hr
      obtain ⟨h3, h4, h5, h6⟩ := h2 kl ts hkt
      rw [hkt] at h1
      refine ⟨hP kl ts h1, h5, ?_, hturn kl ts h1⟩
      intro id' ts' hd
      rcases h.cover id' kl ts' hd with ⟨f, hf, h7, h8⟩ | ⟨r, hm, h7, h8⟩ | h7
      · exact absurd (.inr (.inl ⟨f, hf, h7, h8⟩)) (hturn kl ts h1 id' ts')
      · rcases hkeep r hm with h9 | h9
        · have := h6 r (findRecord_mem ((hsub.map _).nodup h.nodup) h9 h7)
          omega
        · have := (h.recs r hm).2.1
          omega
      · omega
    split
    · exact ci_conclude (p := p) (rec := none) (hbase y.st none (by intro kl ts h; cases h)) (hcall _) (huniq _) (hsucc _)
        _ _ _ _ trivial ⟨(fun _ _ h => by cases h), (fun _ _ h => by cases h)⟩
    · exact ci_conclude (p := p) (rec := none) (hbase y.st none (by intro kl ts h; cases h)) (hcall _) (huniq _) (hsucc _)
        _ _ _ _ trivial ⟨(fun _ _ h => by cases h), (fun _ _ h => by cases h)⟩
    · rename_i rec
      have h1 := (hrec _ _ rfl).1
      exact ci_conclude (p := p) (rec := rec) (hbase y.st rec (hgood _ _ rfl)) (hcall _) (huniq _) (hsucc _)
        _ _ _ _ ⟨rfl, rfl⟩ ⟨fun _ _ _ => h1, fun _ _ _ => h1⟩
    · exact ci_conclude (p := p) (rec := none) (hbase y.st none (by intro kl ts h; cases h)) (hcall _) (huniq _) (hsucc _)
        _ _ _ _ trivial ⟨(fun _ _ h => by cases h), (fun _ _ h => by cases h)⟩
    · rename_i rec n
      have h1 := (hrec _ _ rfl).1
      have hout := requestCertificate_rec (V := V) (now := y.now) _ y.st { packet := p, record := rec } n
        (Nat.le_refl _)
      exact ci_conclude (p := p) (rec := rec) (hbase _ rec (hgood _ _ rfl)) (hcall _) (huniq _) (hsucc _)
        _ _ _ _ hout ⟨fun _ _ _ => h1, fun _ _ _ => h1⟩

theorem commandIs_parse {i : Interest} {s : Except Err Bytes} {kl : Name} {ts : Nat} :
    parseCommandInterest (.interest i s) = .ok (kl, ts) ↔ CommandIs (.interest i s) kl ts := by
  have e0 : parseCommandInterest (.interest i s) = (if i.name.length < 4 then .fail .policyError
      else (do
        let c ← Res.lift (pyIndex i.name (-4))
        let kl ← getKeyLocatorName (.interest i s)
        return (kl, c.toNumber) : Res (Name × Nat))) := rfl
  rw [e0]
  have e1 : CommandIs (.interest i s) kl ts ↔ (KeyLocatorIs (.interest i s) kl ∧
      ∃ pre timestamp nonce info value, i.name = pre ++ [timestamp, nonce, info, value] ∧
        timestamp.toNumber = ts) := Iff.rfl
  rw [e1, ← getKeyLocatorName_ok]
  clear e0 e1
  split
  · rename_i hlen
    constructor
    · intro h; cases h
    · rintro ⟨_, pre, a, b, c, d, e, _⟩
      rw [e] at hlen
      simp at hlen
      omega
  · rename_i hlen
    have hp : pyIndex i.name (-4) = .ok (i.name[i.name.length - 4]'(by omega)) :=
      pyIndex_neg i.name 4 (by omega) (by omega)
    rw [hp]
    have hform : i.name = i.name.take (i.name.length - 4) ++ [i.name[i.name.length - 4]'(by omega),
        i.name[i.name.length - 3]'(by omega), i.name[i.name.length - 2]'(by omega),
        i.name[i.name.length - 1]'(by omega)] := by
      conv => lhs; rw [← List.take_append_drop (i.name.length - 4) i.name]
      congr 1
      rw [List.drop_eq_getElem_cons (by omega), List.drop_eq_getElem_cons (by omega),
        List.drop_eq_getElem_cons (by omega), List.drop_eq_getElem_cons (by omega),
        List.drop_eq_nil_of_le (by omega)]
      simp only [show i.name.length - 4 + 1 = i.name.length - 3 by omega,
        show i.name.length - 3 + 1 = i.name.length - 2 by omega,
        show i.name.length - 2 + 1 = i.name.length - 1 by omega]
    simp only [Res.lift, bind, Res.bind]
    constructor
    · intro h
      cases hk : getKeyLocatorName (.interest i s) with
      | fail e => rw [hk] at h; cases h
      | raise e => rw [hk] at h; cases h
      | ok kl' =>
        rw [hk] at h
        cases h
        exact ⟨rfl, _, _, _, _, _, hform, rfl⟩
    · rintro ⟨hk, pre, a, b, c, d, e, rfl⟩
      rw [hk]
      have : i.name[i.name.length - 4]'(by omega) = a := by
        have h1 : i.name[i.name.length - 4]? = some a := by
          rw [e]
          simp
        rw [List.getElem?_eq_getElem (by omega)] at h1
        exact Option.some.inj h1
      rw [this]
      rfl

theorem recOf_command {V : Cfg} {o : CommandOptions} (hV : V.command = some o) {p : Packet} {kl : Name} {ts : Nat} :
    recOf V p = some (kl, ts) ↔ CommandIs p kl ts := by
  cases p with
  | data d =>
    unfold recOf CommandIs
    rw [hV]
    simp
  | interest i s => rw [← recOf_parse hV, commandIs_parse]

theorem ci_step {V : Cfg} {o : CommandOptions} (hV : V.command = some o) {P : Name → Prop}
    (hlife : 2 * grace o < o.recordLifetime)
    (hroom : ∀ rs : List Record, (rs.map Record.keyName).Nodup → (∀ r ∈ rs, P r.keyName) →
      ¬ (0 ≤ o.maxRecords ∧ (rs.length : Int) > o.maxRecords))
    {y : Sys} (hi : Inv V y) (h : CI V o P y []) (e : Event) (ht : InTurn y e)
    (hP : ∀ p ok kl ts, e = .validate p ok → CommandIs p kl ts → P kl) : CI V o P (step V y e) [] := by
  have hst : ∀ st, CI V o P { y with st := st } [] := fun st =>
    ci_congr h rfl rfl rfl (Int.le_refl _) (fun _ h => h) (fun _ _ _ h => h)
  have htr : ∀ c st, CI V o P { y.emit (.trusted c) with st := st } [] := fun c st =>
    ci_congr h rfl rfl rfl (Int.le_refl _) (sub_emit _ _)
      (fun _ _ _ h => done_emit (fun _ => by simp) (fun _ _ => by simp) rfl h)
  cases e with
  | validate p ok =>
    refine ci_validate hV hlife hroom hi h p ok
      (fun kl ts hr => hP p ok kl ts rfl ((recOf_command hV).1 hr)) ?_
    intro kl ts hr id ts' ho
    have hc := (recOf_command hV).1 hr
    rcases ho with ⟨q, hq, rfl, hqr⟩ | ⟨f, hf, rfl, hfr⟩ | ho
    · have h1 := h.pend q hq
      rw [hqr] at h1
      exact ht kl ts hc q.id q.session.packet ts' (hi.pend q hq).1 ((recOf_command hV).1 h1.symm)
        (.inl ⟨q, hq, rfl⟩)
    · obtain ⟨p', hp', hr'⟩ := h.frames f hf _ hfr
      exact ht kl ts hc f.id p' ts' hp' ((recOf_command hV).1 hr') (.inr ⟨f, hf, rfl⟩)
    · cases ho
  | data k d ok => exact ci_onData hi h k d ok
  | timeout k ok => exact ci_onTimeout hi h k ok
  | resume k => exact ci_resume hi h k
  | loadAnchor g c => exact htr c _
  | removeAnchor g n => exact hst _
  | fileAdded c =>
    simp only [step]
    split
    · exact h
    · exact htr c _
  | fileRemoved n => exact hst _
  | resetAnchors => exact hst _
  | cacheVerified c =>
    simp only [step]
    split
    · exact h
    · exact htr c _
  | cacheUnverified c =>
    simp only [step]
    split
    · exact h
    · exact hst _
  | resetVerified => exact hst _
  | clock t =>
    exact ci_congr h rfl rfl rfl ht (sub_emit _ _)
      (fun _ _ _ h => done_emit (fun _ => by simp) (fun _ _ => by simp) rfl h)

theorem ci_init (V : Cfg) (o : CommandOptions) (P : Name → Prop) (t : Int) : CI V o P (init t) [] := by
  have hd : ∀ id kl ts, ¬ Done V (init t) id kl ts := by
    rintro id kl ts ⟨h, _⟩
    simp [init] at h
  have ho : ∀ id kl ts, ¬ Open (init t) [] id kl ts := by
    rintro id kl ts (⟨q, hq, _⟩ | ⟨q, hq, _⟩ | h)
    · cases hq
    · cases hq
    · cases h
  exact ⟨(fun q hq => by cases hq), (fun q hq => by cases hq), fun id kl ts h => absurd h (ho _ _ _),
    List.nodup_nil, (fun r hr => by cases hr), fun id kl ts h => absurd h (hd _ _ _),
    fun id kl ts h => absurd h (ho _ _ _), fun id kl ts _ _ h => absurd h (ho _ _ _),
    fun id kl ts _ _ h => absurd h (hd _ _ _)⟩

theorem ci_run {V : Cfg} {o : CommandOptions} (hV : V.command = some o) {P : Name → Prop}
    (hlife : 2 * grace o < o.recordLifetime)
    (hroom : ∀ rs : List Record, (rs.map Record.keyName).Nodup → (∀ r ∈ rs, P r.keyName) →
      ¬ (0 ≤ o.maxRecords ∧ (rs.length : Int) > o.maxRecords)) : ∀ (es : List Event) {y : Sys},
    Inv V y → CI V o P y [] → Sequential V y es →
    (∀ p ok kl ts, Event.validate p ok ∈ es → CommandIs p kl ts → P kl) → CI V o P (run V y es) []
  | [], y, _, h, _, _ => h
  | e :: es, y, hi, h, ⟨ht, hs⟩, hP =>
    ci_run hV hlife hroom es (inv_step hi e)
      (ci_step hV hlife hroom hi h e ht
        (fun p ok kl ts he => hP p ok kl ts (he ▸ List.mem_cons_self ..)))
      hs (fun p ok kl ts hm => hP p ok kl ts (List.mem_cons_of_mem _ hm))

end PyNDN.Validator
