import Verif.Spec.ContentCache
import Verif.Lemmas.History
import Verif.Props.Name
/-
Invariants of the MemoryContentCache.
-/
namespace PyNDN
namespace ContentCache

/-- What justifies an event. -/
def Reason (pre : List Ev) : Ev → Prop
  | .reply i _ c now => ∃ f m t, Ev.added c f m t ∈ pre ∧ accepts i c f t now
  | .answer id face c now => ∃ p t f m, Ev.stored p t ∈ pre ∧ p.id = id ∧ p.face = face ∧ id ∉ answered pre ∧ now < timesOutAt p.interest t ∧
      p.interest.matchesName c.name = .ok true ∧ Ev.added c f m now ∈ pre ∧ Ev.read now ∈ pre
  | _ => True

namespace Cache

def pendIds (n : Cache) : List Nat := n.pending.map (·.id)

structure Inv (n : Cache) : Prop where
  stale : ∀ s ∈ n.stale, ∃ (f : Nat) (m t : Int), Ev.added s.content (some f) m t ∈ n.trace ∧ s.removal = t + max (f : Int) m ∧ s.expiry = t + f
  noStale : ∀ c ∈ n.noStale, ∃ m t, Ev.added c none m t ∈ n.trace
  sorted : n.stale.Pairwise (fun a b => a.removal ≤ b.removal)
  keep : ∀ c (f : Nat) (m t : Int), Ev.added c (some f) m t ∈ n.trace → (∀ r ∈ readings n.trace, r < t + max (f : Int) m) →
    (⟨c, t + max (f : Int) m, t + f⟩ : StaleContent) ∈ n.stale
  keepNo : ∀ c m t, Ev.added c none m t ∈ n.trace → c ∈ n.noStale
  pend : ∀ p ∈ n.pending, ∃ t, Ev.stored p t ∈ n.trace ∧ p.timeout = timesOutAt p.interest t
  timeout : ∀ p t, Ev.stored p t ∈ n.trace → p.timeout = timesOutAt p.interest t
  keepP : ∀ p t, Ev.stored p t ∈ n.trace → p ∈ n.pending ∨ p.id ∈ answered n.trace ∨ ∃ r ∈ readings n.trace, p.timeout ≤ r
  once : ∀ i, (n.pendIds).count i + (answered n.trace).count i ≤ 1
  bound : ∀ i, (n.pendIds).count i + (answered n.trace).count i ≠ 0 → i < n.stores
  just : Justified Reason n.trace

end Cache

theorem readings_append (a b : List Ev) : readings (a ++ b) = readings a ++ readings b := List.filterMap_append
theorem answered_append (a b : List Ev) : answered (a ++ b) = answered a ++ answered b := List.filterMap_append

namespace Cache

theorem inv_read {n : Cache} (h : n.Inv) (now : Int) : ((n.emit (.read now)).doCleanup now).Inv := by
  have hm : ∀ {e}, e ∈ n.trace → e ∈ n.trace ++ [Ev.read now] := fun h => List.mem_append_left _ h
  have hq : answered (n.trace ++ [Ev.read now]) = answered n.trace := by rw [answered_append]; simp [answered]
  have hr : readings (n.trace ++ [Ev.read now]) = readings n.trace ++ [now] := by rw [readings_append]; rfl
  have hj : Justified Reason (n.trace ++ [Ev.read now]) := justified_one h.just trivial
  have old : ∀ {c f m t}, Ev.added c f m t ∈ n.trace ++ [Ev.read now] → Ev.added c f m t ∈ n.trace := fun h => by simpa using h
  have oldS : ∀ {p t}, Ev.stored p t ∈ n.trace ++ [Ev.read now] → Ev.stored p t ∈ n.trace := fun h => by simpa using h
  have base : (n.emit (.read now)).Inv := by
    refine ⟨?_, ?_, h.sorted, ?_, ?_, ?_, fun p t h1 => h.timeout p t (oldS h1), ?_, ?_, ?_, hj⟩
    · intro s hs
      obtain ⟨f, m, t, h1, h2⟩ := h.stale s hs
      exact ⟨f, m, t, hm h1, h2⟩
    · intro c hc
      obtain ⟨m, t, h1⟩ := h.noStale c hc
      exact ⟨m, t, hm h1⟩
    · intro c f m t h1 h2
      refine h.keep c f m t (old h1) (fun r hr' => h2 r ?_)
      show r ∈ readings (n.trace ++ [Ev.read now])
      rw [hr]; exact List.mem_append_left _ hr'
    · exact fun c m t h1 => h.keepNo c m t (old h1)
    · intro p hp
      obtain ⟨t, h1, h2⟩ := h.pend p hp
      exact ⟨t, hm h1, h2⟩
    · intro p t h1
      show _ ∨ _ ∈ answered (n.trace ++ [Ev.read now]) ∨ ∃ r ∈ readings (n.trace ++ [Ev.read now]), _
      rw [hq, hr]
      rcases h.keepP p t (oldS h1) with h2 | h2 | ⟨r, h2, h3⟩
      · exact .inl h2
      · exact .inr (.inl h2)
      · exact .inr (.inr ⟨r, List.mem_append_left _ h2, h3⟩)
    · intro i; show _ + (answered (n.trace ++ _)).count i ≤ 1; rw [hq]; exact h.once i
    · intro i; show _ + (answered (n.trace ++ _)).count i ≠ 0 → _; rw [hq]; exact h.bound i
  unfold doCleanup
  split
  · have hsub : ((n.emit (.read now)).stale.dropWhile (fun s => decide (s.removal ≤ now))).Sublist n.stale := List.dropWhile_sublist _
    refine ⟨fun s hs => base.stale s (hsub.mem hs), base.noStale, h.sorted.sublist hsub, ?_, base.keepNo, base.pend, base.timeout, base.keepP, base.once, base.bound, hj⟩
    intro c f m t h1 h2
    have hin := base.keep c f m t h1 h2
    have hlt : now < t + max (f : Int) m := h2 now (by
      show now ∈ readings (n.trace ++ [Ev.read now])
      rw [hr]; simp)
    show _ ∈ (n.stale.dropWhile _)
    have : ∀ l : List StaleContent, (⟨c, t + max (f : Int) m, t + f⟩ : StaleContent) ∈ l →
        (⟨c, t + max (f : Int) m, t + f⟩ : StaleContent) ∈ l.dropWhile (fun s => decide (s.removal ≤ now)) := by
      intro l
      induction l with
      | nil => exact fun h => h
      | cons x l ih =>
        intro hx
        rw [List.dropWhile_cons]
        split
        · next hc =>
          rcases List.mem_cons.mp hx with rfl | hx
          · simp only [decide_eq_true_eq] at hc
            omega
          · exact ih hx
        · exact hx
    exact this _ hin
  · exact base

theorem insertRev_mem (e : StaleContent) (l : List StaleContent) : ∀ x, x ∈ insertRev e l ↔ x = e ∨ x ∈ l := by
  intro x
  induction l with
  | nil => simp [insertRev]
  | cons y l ih =>
    unfold insertRev
    split
    · simp
    · simp only [List.mem_cons, ih]
      constructor
      · rintro (h | h | h)
        · exact .inr (.inl h)
        · exact .inl h
        · exact .inr (.inr h)
      · rintro (h | h | h)
        · exact .inr (.inl h)
        · exact .inl h
        · exact .inr (.inr h)

theorem insertRev_sorted (e : StaleContent) (l : List StaleContent) (h : l.Pairwise (fun a b => b.removal ≤ a.removal)) :
    (insertRev e l).Pairwise (fun a b => b.removal ≤ a.removal) := by
  induction l with
  | nil => simp [insertRev]
  | cons y l ih =>
    obtain ⟨h1, h2⟩ := List.pairwise_cons.mp h
    unfold insertRev
    split
    · next hle =>
      refine List.pairwise_cons.mpr ⟨fun z hz => ?_, h⟩
      rcases List.mem_cons.mp hz with rfl | hz
      · exact hle
      · exact Int.le_trans (h1 z hz) hle
    · next hle =>
      refine List.pairwise_cons.mpr ⟨fun z hz => ?_, ih h2⟩
      rcases (insertRev_mem e l z).mp hz with rfl | hz
      · omega
      · exact h1 z hz

/-- The loop of `add`. -/
theorem answerRev_spec (name : Name) (now : Int) (sendOk : Nat → Bool) (l : List Stored) :
    (answerRev name now sendOk l).1.Sublist l ∧
    (answerRev name now sendOk l).2.Sublist l ∧
    (∀ i, ((answerRev name now sendOk l).1.map (·.id)).count i + ((answerRev name now sendOk l).2.map (·.id)).count i ≤ (l.map (·.id)).count i) ∧
    (∀ p ∈ (answerRev name now sendOk l).2, now < p.timeout ∧ p.interest.matchesName name = .ok true) ∧
    (∀ p ∈ l, p ∈ (answerRev name now sendOk l).1 ∨ p ∈ (answerRev name now sendOk l).2 ∨ p.timeout ≤ now) := by
  induction l with
  | nil => simp [answerRev]
  | cons p l ih =>
    obtain ⟨h1, h2, h3, h4, h5⟩ := ih
    unfold answerRev
    split
    · next ht =>
      refine ⟨h1.cons _, h2.cons _, fun i => ?_, h4, fun q hq => ?_⟩
      · rw [List.map_cons, List.count_cons]
        have := h3 i
        omega
      · rcases List.mem_cons.mp hq with rfl | hq
        · exact .inr (.inr ht)
        · exact h5 q hq
    · next ht =>
      split
      · exact ⟨List.Sublist.refl _, List.nil_sublist _, by simp, by simp, fun q hq => .inl hq⟩
      · refine ⟨h1.cons_cons _, h2.cons _, fun i => ?_, h4, fun q hq => ?_⟩
        · dsimp only
          rw [List.map_cons, List.map_cons, List.count_cons, List.count_cons]
          have := h3 i
          omega
        · rcases List.mem_cons.mp hq with rfl | hq
          · exact .inl (List.mem_cons_self ..)
          · exact (h5 q hq).imp (List.mem_cons_of_mem _) (fun h => h)
      · next hm =>
        split
        · refine ⟨h1.cons _, h2.cons_cons _, fun i => ?_, fun q hq => ?_, fun q hq => ?_⟩
          · dsimp only
            rw [List.map_cons, List.map_cons, List.count_cons, List.count_cons]
            have := h3 i
            omega
          · rcases List.mem_cons.mp hq with rfl | hq
            · exact ⟨by omega, hm⟩
            · exact h4 q hq
          · rcases List.mem_cons.mp hq with rfl | hq
            · exact .inr (.inl (List.mem_cons_self ..))
            · exact (h5 q hq).imp (fun h => h) (fun h => h.imp (List.mem_cons_of_mem _) (fun h => h))
        · exact ⟨List.Sublist.refl _, List.nil_sublist _, by simp, by simp, fun q hq => .inl hq⟩

/-- The events that answer stored Interests. -/
def answers (c : Content) (now : Int) (l : List Stored) : List Ev := l.map (fun p => .answer p.id p.face c now)

theorem readings_answers (c : Content) (now : Int) (l : List Stored) : readings (answers c now l) = [] := by
  unfold readings answers
  rw [List.filterMap_eq_nil_iff]
  intro e he
  obtain ⟨p, _, rfl⟩ := List.mem_map.mp he
  rfl

theorem answered_answers (c : Content) (now : Int) (l : List Stored) : answered (answers c now l) = l.map (·.id) := by
  unfold answered answers
  rw [List.filterMap_map]
  induction l with
  | nil => rfl
  | cons x l ih => simpa using ih

theorem added_answers (c : Content) (now : Int) (l : List Stored) {x f m t} : Ev.added x f m t ∉ answers c now l := by
  intro h
  obtain ⟨p, _, hp⟩ := List.mem_map.mp h
  cases hp

theorem stored_answers (c : Content) (now : Int) (l : List Stored) {p t} : Ev.stored p t ∉ answers c now l := by
  intro h
  obtain ⟨p, _, hp⟩ := List.mem_map.mp h
  cases hp

theorem inv_add {n : Cache} (h : n.Inv) (name : Name) (wire : Except Err Bytes) (f : Option Nat) (now : Int) (sendOk : Nat → Bool) :
    (n.add name wire f now sendOk).Inv := by
  have hi := inv_read h now
  have hread : Ev.read now ∈ ((n.emit (.read now)).doCleanup now).trace := by
    unfold doCleanup; split <;> simp [emit]
  unfold add
  dsimp only
  generalize (n.emit (.read now)).doCleanup now = n at *
  split
  · exact hi
  · next w =>
    generalize hc : (⟨n.adds, name, w⟩ : Content) = c
    have hcn : c.name = name := by rw [← hc]
    clear hc
    obtain ⟨a1, a2, a3, a4, a5⟩ := answerRev_spec name now sendOk n.pending.reverse
    -- the state with the packet in the cache
    have key : ∀ (st : List StaleContent) (ns : List Content),
        (∀ s ∈ st, ∃ (f' : Nat) (m t : Int), Ev.added s.content (some f') m t ∈ n.trace ++ [.added c f n.minLifetime now] ∧ s.removal = t + max (f' : Int) m ∧ s.expiry = t + f') →
        (∀ x ∈ ns, ∃ m t, Ev.added x none m t ∈ n.trace ++ [.added c f n.minLifetime now]) →
        st.Pairwise (fun a b => a.removal ≤ b.removal) →
        (∀ x (f' : Nat) (m t : Int), Ev.added x (some f') m t ∈ n.trace ++ [.added c f n.minLifetime now] → (∀ r ∈ readings n.trace, r < t + max (f' : Int) m) →
          (⟨x, t + max (f' : Int) m, t + f'⟩ : StaleContent) ∈ st) →
        (∀ x m t, Ev.added x none m t ∈ n.trace ++ [.added c f n.minLifetime now] → x ∈ ns) →
        Inv { n with adds := n.adds + 1, stale := st, noStale := ns, pending := (answerRev name now sendOk n.pending.reverse).1.reverse, trace := n.trace ++ [.added c f n.minLifetime now] ++ answers c now (answerRev name now sendOk n.pending.reverse).2 } := by
      intro st ns k1 k2 k3 k4 k5
      generalize hr : answerRev name now sendOk n.pending.reverse = r at *
      have hread' : readings (n.trace ++ [.added c f n.minLifetime now] ++ answers c now r.2) = readings n.trace := by
        rw [readings_append, readings_append, readings_answers]; simp [readings]
      have hans : answered (n.trace ++ [.added c f n.minLifetime now] ++ answers c now r.2) = answered n.trace ++ r.2.map (·.id) := by
        rw [answered_append, answered_append, answered_answers]; simp [answered]
      have hadd : ∀ {x f' m t}, Ev.added x f' m t ∈ n.trace ++ [.added c f n.minLifetime now] ++ answers c now r.2 → Ev.added x f' m t ∈ n.trace ++ [.added c f n.minLifetime now] := by
        intro x f' m t hx
        rcases List.mem_append.mp hx with hx | hx
        · exact hx
        · exact absurd hx (added_answers c now r.2)
      have cnt : ∀ i, (r.1.reverse.map (·.id)).count i + (answered n.trace ++ r.2.map (·.id)).count i ≤ (n.pendIds).count i + (answered n.trace).count i := by
        intro i
        have := a3 i
        rw [List.map_reverse, List.count_reverse] at this
        rw [List.map_reverse, List.count_reverse, List.count_append]
        unfold pendIds
        omega
      have hst : ∀ {p t}, Ev.stored p t ∈ n.trace ++ [.added c f n.minLifetime now] ++ answers c now r.2 → Ev.stored p t ∈ n.trace := by
        intro p t hx
        rcases List.mem_append.mp hx with hx | hx
        · simpa using hx
        · exact absurd hx (stored_answers c now r.2)
      refine ⟨?_, ?_, k3, ?_, ?_, ?_, fun p t h1 => hi.timeout p t (hst h1), ?_, ?_, ?_, ?_⟩
      · intro s hs
        obtain ⟨f', m, t, h1, h2⟩ := k1 s hs
        exact ⟨f', m, t, List.mem_append_left _ h1, h2⟩
      · intro x hx
        obtain ⟨m, t, h1⟩ := k2 x hx
        exact ⟨m, t, List.mem_append_left _ h1⟩
      · intro x f' m t h1 h2
        dsimp only at h2
        rw [hread'] at h2
        exact k4 x f' m t (hadd h1) h2
      · exact fun x m t h1 => k5 x m t (hadd h1)
      · intro p hp
        obtain ⟨t, h1, h2⟩ := hi.pend p (List.mem_reverse.mp (a1.mem (List.mem_reverse.mp hp)))
        exact ⟨t, List.mem_append_left _ (List.mem_append_left _ h1), h2⟩
      · intro p t h1
        dsimp only
        rw [hans, hread']
        rcases hi.keepP p t (hst h1) with h2 | h2 | h2
        · rcases a5 p (List.mem_reverse.mpr h2) with h3 | h3 | h3
          · exact .inl (List.mem_reverse.mpr h3)
          · exact .inr (.inl (List.mem_append_right _ (List.mem_map.mpr ⟨p, h3, rfl⟩)))
          · exact .inr (.inr ⟨now, List.mem_filterMap.mpr ⟨_, hread, rfl⟩, h3⟩)
        · exact .inr (.inl (List.mem_append_left _ h2))
        · exact .inr (.inr h2)
      · intro i
        dsimp only [pendIds]
        rw [hans]
        exact Nat.le_trans (cnt i) (hi.once i)
      · intro i hne
        refine hi.bound i (fun h0 => hne ?_)
        dsimp only [pendIds]
        rw [hans]
        have := cnt i
        omega
      · refine justified_append (justified_one hi.just trivial) (fun pre e post he => ?_)
        obtain ⟨l1, l2, hl, hpre, hrest⟩ := List.map_eq_append_iff.mp he
        obtain ⟨p, l3, rfl, rfl, hpost⟩ := List.map_eq_cons_iff.mp hrest
        subst hpre
        have hp : p ∈ r.2 := by rw [hl]; simp
        obtain ⟨q1, q2⟩ := a4 p hp
        obtain ⟨t, h1, h2⟩ := hi.pend p (List.mem_reverse.mp (a2.mem hp))
        refine ⟨p, t, f, n.minLifetime, List.mem_append_left _ (List.mem_append_left _ h1), rfl, rfl, ?_, by rw [← h2]; exact q1, by rw [hcn]; exact q2, by simp, List.mem_append_left _ (List.mem_append_left _ hread)⟩
        have ht : answered (n.trace ++ [.added c f n.minLifetime now] ++ List.map (fun p => Ev.answer p.id p.face c now) l1) = answered n.trace ++ l1.map (·.id) := by
          have := answered_answers c now l1
          unfold answers at this
          rw [answered_append, answered_append, this]; simp [answered]
        rw [ht]
        intro hmem
        have := Nat.le_trans (cnt p.id) (hi.once p.id)
        rw [hl, List.map_append, List.map_cons, ← List.append_assoc, List.count_append, List.count_cons] at this
        have h5 := List.count_pos_iff.mpr hmem
        rw [if_pos (by simp)] at this
        omega
    cases f with
    | none =>
      refine key n.stale (n.noStale ++ [c]) ?_ ?_ hi.sorted ?_ ?_
      · intro s hs
        obtain ⟨f', m, t, h1, h2⟩ := hi.stale s hs
        exact ⟨f', m, t, List.mem_append_left _ h1, h2⟩
      · intro x hx
        rcases List.mem_append.mp hx with hx | hx
        · obtain ⟨m, t, h1⟩ := hi.noStale x hx
          exact ⟨m, t, List.mem_append_left _ h1⟩
        · rw [List.mem_singleton.mp hx]
          exact ⟨_, _, List.mem_append_right _ (List.mem_singleton.mpr rfl)⟩
      · intro x f' m t h1 h2
        exact hi.keep x f' m t (by simpa using h1) h2
      · intro x m t h1
        rcases List.mem_append.mp h1 with h1 | h1
        · exact List.mem_append_left _ (hi.keepNo x m t h1)
        · simp only [List.mem_singleton, Ev.added.injEq] at h1
          rw [h1.1]; simp
    | some f =>
      refine key (insertRev ⟨c, now + max (f : Int) n.minLifetime, now + f⟩ n.stale.reverse).reverse n.noStale ?_ ?_ ?_ ?_ ?_
      · intro s hs
        rcases (insertRev_mem _ _ s).mp (List.mem_reverse.mp hs) with rfl | hs
        · exact ⟨f, _, _, List.mem_append_right _ (List.mem_singleton.mpr rfl), rfl, rfl⟩
        · obtain ⟨f', m, t, h1, h2⟩ := hi.stale s (List.mem_reverse.mp hs)
          exact ⟨f', m, t, List.mem_append_left _ h1, h2⟩
      · intro x hx
        obtain ⟨m, t, h1⟩ := hi.noStale x hx
        exact ⟨m, t, List.mem_append_left _ h1⟩
      · rw [List.pairwise_reverse]
        refine insertRev_sorted _ _ ?_
        rw [List.pairwise_reverse]
        exact hi.sorted
      · intro x f' m t h1 h2
        rw [List.mem_reverse, insertRev_mem, List.mem_reverse]
        rcases List.mem_append.mp h1 with h1 | h1
        · exact .inr (hi.keep x f' m t h1 h2)
        · simp only [List.mem_singleton, Ev.added.injEq, Option.some.injEq] at h1
          obtain ⟨rfl, rfl, rfl, rfl⟩ := h1
          exact .inl rfl
      · intro x m t h1
        exact hi.keepNo x m t (by simpa using h1)

/-- What the loop of `_onInterest` finds is one of the contents that the Interest accepts. -/
theorem findLoop_mem (i : Interest) : ∀ (l : List (Content × Bool)) (sel : Option (Component × Content)) (c : Content), findLoop i l sel = .ok (some c) →
    (∃ b, (c, b) ∈ l ∧ i.matchesName c.name = .ok true ∧ (i.mustBeFresh = true → b = true)) ∨ ∃ x, sel = some (x, c) := by
  intro l
  induction l with
  | nil =>
    intro sel c h
    unfold findLoop at h
    cases sel with
    | none => cases h
    | some s => cases h; exact .inr ⟨_, rfl⟩
  | cons x l ih =>
    obtain ⟨d, b⟩ := x
    intro sel c h
    unfold findLoop at h
    split at h
    · cases h
    · next m hm =>
      split at h
      · next hok =>
        have hd : i.matchesName d.name = .ok true ∧ (i.mustBeFresh = true → b = true) := by
          refine ⟨by rw [hm, hok.1], fun hf => ?_⟩
          have := hok.2
          cases b
          · exact absurd ⟨hf, by simp⟩ this
          · rfl
        split at h
        · cases h
          exact .inl ⟨b, List.mem_cons_self .., hd.1, hd.2⟩
        · next s _ =>
          rcases ih _ c h with ⟨b', h1, h2⟩ | ⟨y, hy⟩
          · exact .inl ⟨b', List.mem_cons_of_mem _ h1, h2⟩
          · split at hy
            · cases hy
              exact .inl ⟨b, List.mem_cons_self .., hd.1, hd.2⟩
            · exact .inr ⟨y, hy⟩
      · rcases ih _ c h with ⟨b', h1, h2⟩ | h
        · exact .inl ⟨b', List.mem_cons_of_mem _ h1, h2⟩
        · exact .inr h

theorem contents_added {n : Cache} (h : n.Inv) {now : Int} {c : Content} {b : Bool} (hm : (c, b) ∈ n.contents now) :
    ∃ f m t, Ev.added c f m t ∈ n.trace ∧ (b = true ↔ isFreshAt f t now) := by
  unfold contents at hm
  rcases List.mem_append.mp hm with hm | hm
  · obtain ⟨s, hs, he⟩ := List.mem_map.mp hm
    cases he
    obtain ⟨f, m, t, h1, h2, h3⟩ := h.stale s hs
    refine ⟨some f, m, t, h1, ?_⟩
    rw [h3]
    unfold isFreshAt
    simp
  · obtain ⟨d, hd, he⟩ := List.mem_map.mp hm
    cases he
    obtain ⟨m, t, h1⟩ := h.noStale c hd
    exact ⟨none, m, t, h1, by simp [isFreshAt]⟩

theorem inv_emit {n : Cache} (h : n.Inv) (e : Ev) (hr : ∀ t, e ≠ .read t) (ha : ∀ a b c d, e ≠ .added a b c d) (hn : ∀ a b c d, e ≠ .answer a b c d)
    (hs : ∀ p t, e = .stored p t → p.timeout = timesOutAt p.interest t ∧ p ∈ n.pending) (hj : Reason n.trace e) :
    (n.emit e).Inv := by
  have h1 : readings (n.trace ++ [e]) = readings n.trace := by
    rw [readings_append]
    cases e <;> first | exact absurd rfl (hr _) | simp [readings]
  have h2 : answered (n.trace ++ [e]) = answered n.trace := by
    rw [answered_append]
    cases e <;> first | exact absurd rfl (hn _ _ _ _) | simp [answered]
  have h3 : ∀ {a b c d}, Ev.added a b c d ∈ n.trace ++ [e] → Ev.added a b c d ∈ n.trace := by
    intro a b c d hm
    rcases List.mem_append.mp hm with hm | hm
    · exact hm
    · exact absurd (List.mem_singleton.mp hm).symm (ha _ _ _ _)
  refine ⟨?_, ?_, h.sorted, ?_, ?_, ?_, ?_, ?_, ?_, ?_, justified_one h.just hj⟩
  · intro s hs
    obtain ⟨f, m, t, h1, h2⟩ := h.stale s hs
    exact ⟨f, m, t, List.mem_append_left _ h1, h2⟩
  · intro c hc
    obtain ⟨m, t, h1⟩ := h.noStale c hc
    exact ⟨m, t, List.mem_append_left _ h1⟩
  · intro c f m t h4 h5
    refine h.keep c f m t (h3 h4) ?_
    rw [← h1]; exact h5
  · exact fun c m t h4 => h.keepNo c m t (h3 h4)
  · intro p hp
    obtain ⟨t, h1, h2⟩ := h.pend p hp
    exact ⟨t, List.mem_append_left _ h1, h2⟩
  · intro p t h4
    rcases List.mem_append.mp h4 with h4 | h4
    · exact h.timeout p t h4
    · exact (hs p t (List.mem_singleton.mp h4).symm).1
  · intro p t h4
    show _ ∨ _ ∈ answered (n.trace ++ _) ∨ ∃ r ∈ readings (n.trace ++ _), _
    rw [h1, h2]
    rcases List.mem_append.mp h4 with h4 | h4
    · exact h.keepP p t h4
    · exact .inl (hs p t (List.mem_singleton.mp h4).symm).2
  · intro i; show _ + (answered (n.trace ++ _)).count i ≤ 1; rw [h2]; exact h.once i
  · intro i; show _ + (answered (n.trace ++ _)).count i ≠ 0 → _; rw [h2]; exact h.bound i

theorem inv_onInterest {n : Cache} (h : n.Inv) (pre : Name) (i : Interest) (face : Nat) (now : Int) (ok : Bool) : (n.onInterest pre i face now ok).Inv := by
  have hi := inv_read h now
  unfold onInterest
  dsimp only
  generalize (n.emit (.read now)).doCleanup now = n at *
  split
  · exact hi
  · next c hf =>
    split
    · refine inv_emit hi _ (by simp) (by simp) (by simp) (by simp) ?_
      rcases findLoop_mem i _ _ c hf with ⟨b, h1, h2, h3⟩ | ⟨x, hx⟩
      · obtain ⟨f, m, t, h4, h5⟩ := contents_added hi h1
        exact ⟨f, m, t, h4, h2, fun hfr => h5.mp (h3 hfr)⟩
      · cases hx
    · exact hi
  · split
    · exact inv_emit hi _ (by simp) (by simp) (by simp) (by simp) trivial
    · exact hi

theorem inv_store {n : Cache} (h : n.Inv) (i : Interest) (face : Nat) (now : Int) : (n.storePendingInterest i face now).Inv := by
  generalize hp : (⟨n.stores, i, face, now + ((i.lifetime.getD 4000 : Nat) : Int)⟩ : Stored) = p
  have hpi : p.id = n.stores := by rw [← hp]
  have hpt : p.timeout = timesOutAt p.interest now := by rw [← hp]; rfl
  have hz : (n.pendIds).count n.stores + (answered n.trace).count n.stores = 0 := by
    refine Decidable.byContradiction fun h0 => ?_
    have := h.bound _ h0
    omega
  have h2 : answered (n.trace ++ [Ev.stored p now]) = answered n.trace := by rw [answered_append]; simp [answered]
  have h1 : readings (n.trace ++ [Ev.stored p now]) = readings n.trace := by rw [readings_append]; simp [readings]
  have h3 : ∀ {a b c d}, Ev.added a b c d ∈ n.trace ++ [Ev.stored p now] → Ev.added a b c d ∈ n.trace := fun h => by simpa using h
  have hst : n.storePendingInterest i face now = { n with pending := n.pending ++ [p], stores := n.stores + 1, trace := n.trace ++ [.stored p now] } := by
    rw [← hp]; rfl
  have cnt : ∀ j, ((n.pending ++ [p]).map (·.id)).count j = n.pendIds.count j + if n.stores = j then 1 else 0 := by
    intro j
    rw [List.map_append, List.count_append, List.map_singleton, List.count_singleton, hpi]
    unfold pendIds
    simp
  rw [hst]
  refine ⟨?_, ?_, h.sorted, ?_, fun c m t h4 => h.keepNo c m t (h3 h4), ?_, ?_, ?_, ?_, ?_, justified_one h.just trivial⟩
  · intro s hs
    obtain ⟨f, m, t, h1, h2⟩ := h.stale s hs
    exact ⟨f, m, t, List.mem_append_left _ h1, h2⟩
  · intro c hc
    obtain ⟨m, t, h1⟩ := h.noStale c hc
    exact ⟨m, t, List.mem_append_left _ h1⟩
  · intro c f m t h4 h5
    refine h.keep c f m t (h3 h4) ?_
    rw [← h1]; exact h5
  · intro q hq
    rcases List.mem_append.mp hq with hq | hq
    · obtain ⟨t, h4, h5⟩ := h.pend q hq
      exact ⟨t, List.mem_append_left _ h4, h5⟩
    · rw [List.mem_singleton.mp hq]
      exact ⟨now, List.mem_append_right _ (List.mem_singleton.mpr rfl), hpt⟩
  · intro q t h4
    rcases List.mem_append.mp h4 with h4 | h4
    · exact h.timeout q t h4
    · cases List.mem_singleton.mp h4; exact hpt
  · intro q t h4
    dsimp only
    rw [h1, h2]
    rcases List.mem_append.mp h4 with h4 | h4
    · exact (h.keepP q t h4).imp (List.mem_append_left _) (fun h => h)
    · cases List.mem_singleton.mp h4; exact .inl (List.mem_append_right _ (List.mem_singleton.mpr rfl))
  · intro j
    dsimp only [pendIds]
    rw [h2, cnt]
    have := h.once j
    split
    · next hj => subst hj; omega
    · omega
  · intro j hj
    dsimp only [pendIds] at hj ⊢
    rw [h2, cnt] at hj
    split at hj
    · omega
    · have := h.bound j hj
      omega

theorem inv_step {n : Cache} (h : n.Inv) (a : Action) : (n.step a).Inv := by
  cases a with
  | add name wire f now ok => exact inv_add h name wire f now ok
  | onInterest pre i face now ok => exact inv_onInterest h pre i face now ok
  | storePendingInterest i face now => exact inv_store h i face now
  | setMinimumCacheLifetime m => exact ⟨h.stale, h.noStale, h.sorted, h.keep, h.keepNo, h.pend, h.timeout, h.keepP, h.once, h.bound, h.just⟩
  | setOnDataNotFound pre => exact ⟨h.stale, h.noStale, h.sorted, h.keep, h.keepNo, h.pend, h.timeout, h.keepP, h.once, h.bound, h.just⟩
  | unregisterAll => exact ⟨h.stale, h.noStale, h.sorted, h.keep, h.keepNo, h.pend, h.timeout, h.keepP, h.once, h.bound, h.just⟩

theorem inv_run {n : Cache} (h : n.Inv) (as : List Action) : (n.run as).Inv := by
  unfold run
  induction as generalizing n with
  | nil => exact h
  | cons a as ih => exact ih (inv_step h a)

theorem inv_new (interval now : Int) : (new interval now).Inv :=
  ⟨by simp [new], by simp [new], by simp [new], by simp [new], by simp [new], by simp [new], by simp [new], by simp [new], by simp [new, pendIds, answered], by simp [new, pendIds, answered], justified_nil⟩

theorem reachable_inv {n : Cache} (h : Reachable n) : n.Inv := by
  obtain ⟨interval, now, as, rfl⟩ := h
  exact inv_run (inv_new interval now) as

end Cache
end ContentCache
end PyNDN
