import Verif.Lemmas.ContentCache
import Verif.Props.Match
/-
C36, C37, C38: the MemoryContentCache.  `n.trace` is the history of a cache: the clock readings, the packets that were added, the
Interests that were stored, and what was sent.
-/
namespace PyNDN
namespace ContentCache
open Cache Spec

/-! ### C36 -/

/-- C36: a packet that the cache sends in reply to an Interest was added earlier, the Interest matches its name, and if the
Interest requires freshness then the packet has not gone stale. -/
theorem C36_reply {n : Cache} (h : Reachable n) {i : Interest} {face : Nat} {c : Content} {now : Int} {pre post : List Ev}
    (ht : n.trace = pre ++ .reply i face c now :: post) :
    ∃ f m t, .added c f m t ∈ pre ∧ i.matchesName c.name = .ok true ∧ (i.mustBeFresh = true → isFreshAt f t now) :=
  (reachable_inv h).just pre _ post ht

/-- C36, for the Interests given to `storePendingInterest`: what is sent is the packet that is being added, and the Interest
matches its name.  It is fresh, because it was just added, unless its freshness period is zero. -/
theorem C36_answer_partial {n : Cache} (h : Reachable n) {id face : Nat} {c : Content} {now : Int} {pre post : List Ev}
    (ht : n.trace = pre ++ .answer id face c now :: post) :
    ∃ p t f m, .stored p t ∈ pre ∧ p.id = id ∧ p.face = face ∧ .added c f m now ∈ pre ∧
      p.interest.matchesName c.name = .ok true ∧ (f ≠ some 0 → isFreshAt f now now) := by
  obtain ⟨p, t, f, m, h1, h2, h3, _, _, h4, h5, _⟩ := (reachable_inv h).just pre _ post ht
  refine ⟨p, t, f, m, h1, h2, h3, h5, h4, fun h0 g hg => ?_⟩
  subst hg
  have : g ≠ 0 := fun h => h0 (by rw [h])
  omega

/-! ### C37 -/

theorem nextComponent_eq (i : Interest) (c : Content) : child i c = nextComponent i c := by
  unfold child nextComponent
  rw [← List.head?_drop]
  cases c.name.drop i.name.length <;> rfl

/-- The loop takes a packet at the table's position if the Interest accepts it. -/
def Takes (i : Interest) (x : Content × Bool) : Prop := i.matchesName x.1.name = .ok true ∧ (i.mustBeFresh = true → x.2 = true)

theorem takes_iff {i : Interest} {c : Content} {b m : Bool} (hm : i.matchesName c.name = .ok m) :
    (m = true ∧ ¬ (i.mustBeFresh = true ∧ ¬ b = true)) ↔ Takes i (c, b) := by
  unfold Takes
  rw [hm]
  cases m <;> cases b <;> cases i.mustBeFresh <;> simp

theorem findLoop_found (i : Interest) : ∀ (l : List (Content × Bool)) (sel : Option (Component × Content)),
    (∀ x ∈ l, ∃ m, i.matchesName x.1.name = .ok m) →
    (∃ c, findLoop i l sel = .ok (some c)) ∨ (findLoop i l sel = .ok none ∧ sel = none ∧ ∀ x ∈ l, ¬ Takes i x) := by
  intro l
  induction l with
  | nil =>
    intro sel _
    cases sel with
    | none => exact .inr ⟨rfl, rfl, by simp⟩
    | some s => exact .inl ⟨s.2, rfl⟩
  | cons x l ih =>
    intro sel hok
    obtain ⟨d, b⟩ := x
    obtain ⟨m, hm⟩ := hok (d, b) (List.mem_cons_self ..)
    have ih := fun sel => ih sel (fun y hy => hok y (List.mem_cons_of_mem _ hy))
    unfold findLoop
    rw [hm]
    dsimp only
    split
    · next ht =>
      split
      · exact .inl ⟨d, rfl⟩
      · next s _ =>
        rcases ih (if gotBetterMatch s (child i d) sel then some (child i d, d) else sel) with h | ⟨_, h2, _⟩
        · exact .inl h
        · exfalso
          split at h2
          · cases h2
          · next hb =>
            subst h2
            exact hb rfl
    · next ht =>
      rcases ih sel with h | ⟨h1, h2, h3⟩
      · exact .inl h
      · refine .inr ⟨h1, h2, fun y hy => ?_⟩
        rcases List.mem_cons.mp hy with rfl | hy
        · exact fun h => ht ((takes_iff hm).mpr h)
        · exact h3 y hy

/-- `a` is at least as good as `b` for the child selector. -/
def Better (s : Nat) (a b : Component) : Prop := if s = 0 then a.compare b ≤ 0 else b.compare a ≤ 0

theorem compare_self (a : Component) : a.compare a = 0 := (C10_compare_zero a a).mpr ⟨rfl, rfl⟩

theorem better_refl (s : Nat) (a : Component) : Better s a a := by
  unfold Better; split <;> rw [compare_self] <;> decide

theorem better_trans {s : Nat} {a b c : Component} (h1 : Better s a b) (h2 : Better s b c) : Better s a c := by
  unfold Better at *
  split
  · next hs => rw [if_pos hs] at h1 h2; exact C10_transitive a b c h1 h2
  · next hs => rw [if_neg hs] at h1 h2; exact C10_transitive c b a h2 h1

theorem got_better {s : Nat} {a x : Component} {d : Content} : (gotBetterMatch s a (some (x, d)) = true → Better s a x) ∧ (gotBetterMatch s a (some (x, d)) ≠ true → Better s x a) := by
  unfold gotBetterMatch Better
  have := C10_antisymmetric a x
  by_cases hs : s = 0
  · simp only [hs, if_true, ne_eq, decide_eq_true_eq]
    exact ⟨fun h => by omega, fun h => by omega⟩
  · simp only [hs, if_false, ne_eq, decide_eq_true_eq]
    exact ⟨fun h => by omega, fun h => by omega⟩

theorem findLoop_best (i : Interest) {s : Nat} (hs : i.childSelector = some s) : ∀ (l : List (Content × Bool)) (sel : Option (Component × Content)) (c : Content),
    (∀ x d, sel = some (x, d) → x = child i d) → findLoop i l sel = .ok (some c) →
    (∀ x ∈ l, Takes i x → Better s (child i c) (child i x.1)) ∧ (∀ x d, sel = some (x, d) → Better s (child i c) x) := by
  intro l
  induction l with
  | nil =>
    intro sel c hsel h
    unfold findLoop at h
    cases sel with
    | none => cases h
    | some p =>
      cases h
      refine ⟨by simp, fun x d hx => ?_⟩
      cases hx
      rw [hsel x d rfl]
      exact better_refl s _
  | cons x l ih =>
    intro sel c hsel h
    obtain ⟨d, b⟩ := x
    unfold findLoop at h
    split at h
    · cases h
    · next m hm =>
      split at h
      · next ht =>
        rw [hs] at h
        dsimp only at h
        obtain ⟨i1, i2⟩ := ih _ c (by
          intro x e hx
          split at hx
          · cases hx; rfl
          · exact hsel x e hx) h
        have hd : Better s (child i c) (child i d) ∧ (∀ x e, sel = some (x, e) → Better s (child i c) x) := by
          cases sel with
          | none =>
            refine ⟨i2 (child i d) d ?_, by simp⟩
            exact if_pos rfl
          | some p =>
            obtain ⟨x, e⟩ := p
            by_cases hb : gotBetterMatch s (child i d) (some (x, e)) = true
            · rw [if_pos hb] at i2
              have h1 := i2 _ _ rfl
              refine ⟨h1, fun y e' hy => ?_⟩
              cases hy
              exact better_trans h1 (got_better.1 hb)
            · rw [if_neg hb] at i2
              have h1 := i2 _ _ rfl
              refine ⟨better_trans h1 (got_better.2 hb), fun y e' hy => ?_⟩
              cases hy
              exact h1
        refine ⟨fun y hy hty => ?_, hd.2⟩
        rcases List.mem_cons.mp hy with rfl | hy
        · exact hd.1
        · exact i1 y hy hty
      · next ht =>
        obtain ⟨i1, i2⟩ := ih sel c hsel h
        refine ⟨fun y hy hty => ?_, i2⟩
        rcases List.mem_cons.mp hy with rfl | hy
        · exact absurd ((takes_iff hm).mpr hty) ht
        · exact i1 y hy hty

/-- A packet that is to stay at every clock reading so far is in the cache. -/
theorem lives_contents {n : Cache} (h : n.Inv) {c : Content} {f : Option Nat} {m t now : Int} (ha : .added c f m t ∈ n.trace)
    (hl : ∀ r ∈ readings n.trace, livesAt f m t r) : ∃ b, (c, b) ∈ n.contents now ∧ (isFreshAt f t now → b = true) := by
  unfold contents
  cases f with
  | none => exact ⟨true, List.mem_append_right _ (List.mem_map.mpr ⟨c, h.keepNo c m t ha, rfl⟩), fun _ => rfl⟩
  | some f =>
    have := h.keep c f m t ha (fun r hr => by have := hl r hr f rfl; omega)
    refine ⟨_, List.mem_append_left _ (List.mem_map.mpr ⟨_, this, rfl⟩), fun hf => ?_⟩
    exact decide_eq_true (hf f rfl)

theorem doCleanup_trace (n : Cache) (now : Int) : (n.doCleanup now).trace = n.trace := by unfold doCleanup; split <;> rfl
theorem doCleanup_onDataNotFound (n : Cache) (now : Int) : (n.doCleanup now).onDataNotFound = n.onDataNotFound := by unfold doCleanup; split <;> rfl

theorem matches_ok {i : Interest} (hx : ¬ EndsInAnyAny i.exclude) (name : Name) : ∃ m, i.matchesName name = .ok m := by
  cases hm : i.matchesName name with
  | ok m => exact ⟨m, rfl⟩
  | error e => exact absurd ((C19_matchesName i name).2 e hm) hx

/-- What `_onInterest` does. -/
theorem onInterest_cases {n : Cache} (h : Reachable n) (pre : Name) (i : Interest) (face : Nat) (now : Int) (hx : ¬ EndsInAnyAny i.exclude) :
    (∃ c, (n.step (.onInterest pre i face now true)).trace = n.trace ++ [.read now, .reply i face c now] ∧
      (∀ s, i.childSelector = some s → ∀ d f m t, .added d f m t ∈ n.trace → (∀ r ∈ readings n.trace ++ [now], livesAt f m t r) → accepts i d f t now →
        Better s (nextComponent i c) (nextComponent i d))) ∨
    ((n.step (.onInterest pre i face now true)).trace = n.trace ++ [.read now] ++ (if pre.toUri ∈ n.onDataNotFound then [.notFound pre i face] else []) ∧
      ∀ d f m t, .added d f m t ∈ n.trace → (∀ r ∈ readings n.trace ++ [now], livesAt f m t r) → ¬ accepts i d f t now) := by
  have hi := inv_read (reachable_inv h) now
  have htr : ((n.emit (.read now)).doCleanup now).trace = n.trace ++ [.read now] := doCleanup_trace _ _
  have hreadings : readings (n.trace ++ [.read now]) = readings n.trace ++ [now] := by rw [readings_append]; rfl
  have hnf : ((n.emit (.read now)).doCleanup now).onDataNotFound = n.onDataNotFound := doCleanup_onDataNotFound _ _
  have hin : ∀ d f m t, .added d f m t ∈ n.trace → (∀ r ∈ readings n.trace ++ [now], livesAt f m t r) → accepts i d f t now →
      ∃ b, (d, b) ∈ ((n.emit (.read now)).doCleanup now).contents now ∧ Takes i (d, b) := by
    intro d f m t ha hl hac
    obtain ⟨b, hb, hfb⟩ := lives_contents (now := now) hi (c := d) (by rw [htr]; exact List.mem_append_left _ ha) (by rw [htr, hreadings]; exact hl)
    exact ⟨b, hb, hac.1, fun hf => hfb (hac.2 hf)⟩
  show (∃ c, (n.onInterest pre i face now true).trace = _ ∧ _) ∨ ((n.onInterest pre i face now true).trace = _ ∧ _)
  unfold onInterest
  dsimp only
  generalize (n.emit (.read now)).doCleanup now = n' at *
  have hok : ∀ x ∈ n'.contents now, ∃ m, i.matchesName x.1.name = .ok m := fun x _ => matches_ok hx _
  rcases findLoop_found i (n'.contents now) none hok with ⟨c, hc⟩ | ⟨hc, _, hno⟩
  · left
    rw [hc]
    refine ⟨c, ?_, ?_⟩
    · show n'.trace ++ _ = _
      rw [htr]; simp
    · intro s hs d f m t ha hl hac
      obtain ⟨b, hb, htk⟩ := hin d f m t ha hl hac
      have := (findLoop_best i hs _ none c (by simp) hc).1 (d, b) hb htk
      rwa [nextComponent_eq, nextComponent_eq] at this
  · right
    rw [hc]
    dsimp only
    refine ⟨?_, fun d f m t ha hl hac => ?_⟩
    · rw [hnf]
      split
      · show n'.trace ++ _ = _
        rw [htr]
      · rw [htr]; simp
    · obtain ⟨b, hb, htk⟩ := hin d f m t ha hl hac
      exact hno _ hb htk

/-- C37: if a packet that the Interest accepts was added, and at every clock reading since it was added (and all others) it was
within its cache lifetime, then the cache replies.  (An exclude filter that ends with two "any" entries makes the match test
raise, see C18.) -/
theorem C37_replies {n : Cache} (h : Reachable n) (pre : Name) {i : Interest} (face : Nat) {now : Int} (hx : ¬ EndsInAnyAny i.exclude)
    {c : Content} {f : Option Nat} {m t : Int} (ha : .added c f m t ∈ n.trace)
    (hl : ∀ r ∈ readings n.trace ++ [now], livesAt f m t r) (hc : accepts i c f t now) :
    ∃ c', (n.step (.onInterest pre i face now true)).trace = n.trace ++ [.read now, .reply i face c' now] := by
  rcases onInterest_cases h pre i face now hx with ⟨c', h1, _⟩ | ⟨_, h2⟩
  · exact ⟨c', h1⟩
  · exact absurd hc (h2 c f m t ha hl)

/-- C37: if the cache replies to an Interest with a child selector, then the component after the Interest's name is leftmost (for
0) or rightmost among all packets that the Interest accepts and that are within their lifetimes. -/
theorem C37_child {n : Cache} (h : Reachable n) (pre : Name) {i : Interest} (face : Nat) {now : Int} (hx : ¬ EndsInAnyAny i.exclude)
    {s : Nat} (hs : i.childSelector = some s) {c' : Content}
    (hr : (n.step (.onInterest pre i face now true)).trace = n.trace ++ [.read now, .reply i face c' now])
    {c : Content} {f : Option Nat} {m t : Int} (ha : .added c f m t ∈ n.trace)
    (hl : ∀ r ∈ readings n.trace ++ [now], livesAt f m t r) (hc : accepts i c f t now) :
    (s = 0 → (nextComponent i c').compare (nextComponent i c) ≤ 0) ∧ (s ≠ 0 → (nextComponent i c').compare (nextComponent i c) ≥ 0) := by
  rcases onInterest_cases h pre i face now hx with ⟨d, h1, h2⟩ | ⟨_, h2⟩
  · rw [h1] at hr
    have hd : d = c' := by simpa using hr
    subst hd
    have hb := h2 s hs c f m t ha hl hc
    unfold Better at hb
    have := C10_antisymmetric (nextComponent i d) (nextComponent i c)
    constructor
    · intro h0; rw [if_pos h0] at hb; exact hb
    · intro h0; rw [if_neg h0] at hb; omega
  · exact absurd hc (h2 c f m t ha hl)

/-- C37: otherwise `onDataNotFound` is called, if there is one for the prefix: either the cache replies, or it sends nothing and
calls `onDataNotFound`, never both. -/
theorem C37_notFound {n : Cache} (h : Reachable n) (pre : Name) {i : Interest} (face : Nat) {now : Int} (hx : ¬ EndsInAnyAny i.exclude)
    (hno : ∀ c f m t, .added c f m t ∈ n.trace → ¬ accepts i c f t now) :
    (n.step (.onInterest pre i face now true)).trace =
      n.trace ++ [.read now] ++ (if pre.toUri ∈ n.onDataNotFound then [.notFound pre i face] else []) := by
  rcases onInterest_cases h pre i face now hx with ⟨c', h1, _⟩ | ⟨h1, _⟩
  · exfalso
    have h' : Reachable (n.step (.onInterest pre i face now true)) := by
      obtain ⟨a, b, as, rfl⟩ := h
      exact ⟨a, b, as ++ [.onInterest pre i face now true], by unfold run; rw [List.foldl_append]; rfl⟩
    obtain ⟨f, m, t, h2, h3⟩ := C36_reply h' (i := i) (face := face) (c := c') (now := now) (pre := n.trace ++ [.read now]) (post := []) (by rw [h1]; simp)
    exact hno c' f m t (by simpa using h2) h3
  · exact h1

/-! ### Content is removed -/

theorem next_step {n : Cache} {r0 : Int} (h : ∃ r ∈ r0 :: readings n.trace, n.nextCleanup = r + n.interval) (a : Action) :
    ((n.step a).interval = n.interval) ∧ ∃ r ∈ r0 :: readings (n.step a).trace, (n.step a).nextCleanup = r + (n.step a).interval := by
  obtain ⟨r, h1, h2⟩ := h
  have mono : ∀ evs, r ∈ r0 :: readings (n.trace ++ evs) := fun evs => by
    rw [readings_append]
    rcases List.mem_cons.mp h1 with rfl | h1
    · exact List.mem_cons_self ..
    · exact List.mem_cons_of_mem _ (List.mem_append_left _ h1)
  have clean : ∀ now, ((n.emit (.read now)).doCleanup now).interval = n.interval ∧
      ∃ r ∈ r0 :: readings ((n.emit (.read now)).doCleanup now).trace, ((n.emit (.read now)).doCleanup now).nextCleanup = r + n.interval := by
    intro now
    unfold doCleanup
    split
    · refine ⟨rfl, now, ?_, rfl⟩
      show now ∈ r0 :: readings (n.trace ++ [.read now])
      rw [readings_append]
      exact List.mem_cons_of_mem _ (List.mem_append_right _ (by simp [readings]))
    · exact ⟨rfl, r, mono _, h2⟩
  have grow : ∀ {n' : Cache} {evs}, (n'.interval = n.interval ∧ ∃ r ∈ r0 :: readings n'.trace, n'.nextCleanup = r + n.interval) →
      ∃ r ∈ r0 :: readings (n'.trace ++ evs), n'.nextCleanup = r + n'.interval := by
    rintro n' evs ⟨h3, r', h4, h5⟩
    refine ⟨r', ?_, by rw [h3]; exact h5⟩
    rw [readings_append]
    rcases List.mem_cons.mp h4 with rfl | h4
    · exact List.mem_cons_self ..
    · exact List.mem_cons_of_mem _ (List.mem_append_left _ h4)
  have grow0 : ∀ {n' : Cache}, (n'.interval = n.interval ∧ ∃ r ∈ r0 :: readings n'.trace, n'.nextCleanup = r + n.interval) →
      ∃ r ∈ r0 :: readings n'.trace, n'.nextCleanup = r + n'.interval := by
    intro n' h3
    have := grow (evs := []) h3
    rwa [List.append_nil] at this
  cases a with
  | add name wire f now ok =>
    show (n.add name wire f now ok).interval = _ ∧ ∃ r ∈ r0 :: readings (n.add name wire f now ok).trace, (n.add name wire f now ok).nextCleanup = r + (n.add name wire f now ok).interval
    unfold add
    dsimp only
    have hc := clean now
    generalize (n.emit (.read now)).doCleanup now = n' at *
    split
    · exact ⟨hc.1, grow0 hc⟩
    · cases f with
      | none =>
        refine ⟨hc.1, ?_⟩
        dsimp only [emit]
        rw [List.append_assoc]
        exact grow hc
      | some f =>
        refine ⟨hc.1, ?_⟩
        dsimp only [emit]
        rw [List.append_assoc]
        exact grow hc
  | onInterest pre i face now ok =>
    show (n.onInterest pre i face now ok).interval = _ ∧ ∃ r ∈ r0 :: readings (n.onInterest pre i face now ok).trace, (n.onInterest pre i face now ok).nextCleanup = r + (n.onInterest pre i face now ok).interval
    unfold onInterest
    dsimp only
    have hc := clean now
    generalize (n.emit (.read now)).doCleanup now = n' at *
    split
    · exact ⟨hc.1, grow0 hc⟩
    · split
      · exact ⟨hc.1, grow hc⟩
      · exact ⟨hc.1, grow0 hc⟩
    · split
      · exact ⟨hc.1, grow hc⟩
      · exact ⟨hc.1, grow0 hc⟩
  | storePendingInterest i face now => exact ⟨rfl, r, mono _, h2⟩
  | setMinimumCacheLifetime m => exact ⟨rfl, r, h1, h2⟩
  | setOnDataNotFound pre => exact ⟨rfl, r, h1, h2⟩
  | unregisterAll => exact ⟨rfl, r, h1, h2⟩

theorem next_run (interval t0 : Int) (as : List Action) :
    ((new interval t0).run as).interval = interval ∧
    ∃ r ∈ t0 :: readings ((new interval t0).run as).trace, ((new interval t0).run as).nextCleanup = r + interval := by
  suffices ∀ n : Cache, n.interval = interval → (∃ r ∈ t0 :: readings n.trace, n.nextCleanup = r + n.interval) →
      (n.run as).interval = interval ∧ ∃ r ∈ t0 :: readings (n.run as).trace, (n.run as).nextCleanup = r + (n.run as).interval by
    obtain ⟨h1, h2⟩ := this (new interval t0) rfl ⟨t0, List.mem_cons_self .., rfl⟩
    rw [h1] at h2
    exact ⟨h1, h2⟩
  induction as with
  | nil => exact fun n h1 h2 => ⟨h1, h2⟩
  | cons a as ih =>
    intro n h1 h2
    obtain ⟨h3, h4⟩ := next_step h2 a
    exact ih (n.step a) (by rw [h3, h1]) h4

/-- C37: once the cleanup interval has passed since the cache last looked at the clock, it replies only with packets that are
within their cache lifetimes. -/
theorem C37_removed {interval t0 : Int} {as : List Action} {n : Cache} (hn : n = (new interval t0).run as) (pre : Name) {i : Interest} (face : Nat) {now : Int}
    (hnow : ∀ r ∈ t0 :: readings n.trace, r + interval ≤ now) {ok : Bool} {c : Content}
    (hr : (n.step (.onInterest pre i face now ok)).trace = n.trace ++ [.read now, .reply i face c now]) :
    ∃ f m t, .added c f m t ∈ n.trace ∧ livesAt f m t now := by
  obtain ⟨hi1, r, hr1, hr2⟩ := next_run interval t0 as
  rw [← hn] at hi1 hr1 hr2
  have hinv : n.Inv := reachable_inv ⟨interval, t0, as, hn⟩
  have hle : now ≥ n.nextCleanup := by rw [hr2]; exact hnow r hr1
  have hcl : (n.emit (.read now)).doCleanup now =
      { n.emit (.read now) with stale := n.stale.dropWhile (fun s => s.removal ≤ now), nextCleanup := now + n.interval } := by
    unfold doCleanup
    exact if_pos hle
  have hrem : ∀ s ∈ n.stale.dropWhile (fun s => decide (s.removal ≤ now)), now < s.removal := by
    have := hinv.sorted
    generalize n.stale = l at this
    induction l with
    | nil => simp
    | cons x l ih =>
      obtain ⟨h1, h2⟩ := List.pairwise_cons.mp this
      intro s hs
      rw [List.dropWhile_cons] at hs
      split at hs
      · exact ih h2 s hs
      · next hx =>
        simp only [decide_eq_true_eq] at hx
        rcases List.mem_cons.mp hs with rfl | hs
        · omega
        · have := h1 s hs
          omega
  have hi' := inv_read hinv now
  change (n.onInterest pre i face now ok).trace = _ at hr
  unfold onInterest at hr
  dsimp only at hr
  rw [hcl] at hr hi'
  split at hr
  · simp [emit] at hr
  · next d hf =>
    split at hr
    · have hd : d = c := by simpa [emit] using hr
      subst hd
      rcases findLoop_mem i _ _ d hf with ⟨b, hb, _⟩ | ⟨x, hx⟩
      · unfold contents at hb
        rcases List.mem_append.mp hb with hb | hb
        · obtain ⟨s, hs, he⟩ := List.mem_map.mp hb
          cases he
          obtain ⟨f, m, t, h1, h2, h3⟩ := hinv.stale s ((List.dropWhile_sublist _).mem hs)
          refine ⟨some f, m, t, h1, fun g hg => ?_⟩
          cases hg
          have := hrem s hs
          omega
        · obtain ⟨e, he, hd⟩ := List.mem_map.mp hb
          cases hd
          obtain ⟨m, t, h1⟩ := hinv.noStale d he
          exact ⟨none, m, t, h1, by intro g hg; cases hg⟩
      · cases hx
    · simp [emit] at hr
  · split at hr
    · simp [emit] at hr
    · simp [emit] at hr

/-! ### C38 -/

/-- C38: a stored Interest is answered at most once. -/
theorem C38_once {n : Cache} (h : Reachable n) (id : Nat) : (answered n.trace).count id ≤ 1 := by
  have := (reachable_inv h).once id
  omega

/-- C38: it is answered only with a packet that matches, at the time when the packet is added and before the Interest times out. -/
theorem C38_answer {n : Cache} (h : Reachable n) {id face : Nat} {c : Content} {now : Int} {pre post : List Ev}
    (ht : n.trace = pre ++ .answer id face c now :: post) :
    ∃ p t f m, .stored p t ∈ pre ∧ p.id = id ∧ p.face = face ∧ id ∉ answered pre ∧ now < timesOutAt p.interest t ∧
      p.interest.matchesName c.name = .ok true ∧ .added c f m now ∈ pre := by
  obtain ⟨p, t, f, m, h1, h2, h3, h4, h5, h6, h7, _⟩ := (reachable_inv h).just pre _ post ht
  exact ⟨p, t, f, m, h1, h2, h3, h4, h5, h6, h7⟩

theorem answerRev_all (name : Name) (now : Int) (l : List Stored) (hx : ∀ p ∈ l, ¬ EndsInAnyAny p.interest.exclude) :
    ∀ p ∈ l, now < p.timeout → p.interest.matchesName name = .ok true → p ∈ (answerRev name now (fun _ => true) l).2 := by
  induction l with
  | nil => simp
  | cons q l ih =>
    have ih := ih (fun p hp => hx p (List.mem_cons_of_mem _ hp))
    intro p hp h1 h2
    unfold answerRev
    split
    · next hq =>
      rcases List.mem_cons.mp hp with rfl | hp
      · omega
      · exact ih p hp h1 h2
    · split
      · next e hm => exact absurd ((C19_matchesName _ _).2 e hm) (hx q (List.mem_cons_self ..))
      · next hm =>
        rcases List.mem_cons.mp hp with rfl | hp
        · rw [hm] at h2; cases h2
        · exact ih p hp h1 h2
      · rw [if_pos rfl]
        rcases List.mem_cons.mp hp with rfl | hp
        · exact List.mem_cons_self ..
        · exact List.mem_cons_of_mem _ (ih p hp h1 h2)

/-- C38, the other direction: if sending does not raise, then adding a packet answers every stored Interest that matches it, was
not answered before, and has not timed out at any clock reading. -/
theorem C38_all {n : Cache} (h : Reachable n) (name : Name) (wire : Bytes) (f : Option Nat) (now : Int)
    (hx : ∀ p t, .stored p t ∈ n.trace → ¬ EndsInAnyAny p.interest.exclude)
    {p : Stored} {t : Int} (hp : .stored p t ∈ n.trace) (hna : p.id ∉ answered n.trace)
    (hto : ∀ r ∈ readings n.trace ++ [now], r < timesOutAt p.interest t) (hm : p.interest.matchesName name = .ok true) :
    p.id ∈ answered (n.step (.add name (.ok wire) f now (fun _ => true))).trace := by
  have h0 := reachable_inv h
  have hi := inv_read h0 now
  have htr : ((n.emit (.read now)).doCleanup now).trace = n.trace ++ [.read now] := doCleanup_trace _ _
  have hpe : ((n.emit (.read now)).doCleanup now).pending = n.pending := by unfold doCleanup; split <;> rfl
  have hin : p ∈ n.pending := by
    rcases h0.keepP p t hp with h1 | h1 | ⟨r, h1, h2⟩
    · exact h1
    · exact absurd h1 hna
    · have := hto r (List.mem_append_left _ h1)
      rw [← h0.timeout p t hp] at this
      omega
  show p.id ∈ answered (n.add name (.ok wire) f now (fun _ => true)).trace
  unfold add
  dsimp only
  generalize (n.emit (.read now)).doCleanup now = n' at *
  have hall := answerRev_all name now n.pending.reverse (by
    intro q hq
    obtain ⟨u, hu, _⟩ := h0.pend q (List.mem_reverse.mp hq)
    exact hx q u hu) p (List.mem_reverse.mpr hin) (by
    have := hto now (by simp)
    rwa [← h0.timeout p t hp] at this) hm
  rw [answered_append]
  refine List.mem_append_right _ ?_
  have hq : ∀ c l, p ∈ l → p.id ∈ answered (List.map (fun p : Stored => Ev.answer p.id p.face c now) l) := by
    intro c l hl
    have := answered_answers c now l
    unfold answers at this
    rw [this]
    exact List.mem_map.mpr ⟨p, hl, rfl⟩
  refine hq _ _ ?_
  cases f <;> (show p ∈ (answerRev name now (fun _ => true) n'.pending.reverse).2; rw [hpe]; exact hall)

/-! ### Examples -/

/-- /A/x for one byte. -/
def exN (x : UInt8) : Name := [⟨.generic, [65]⟩, ⟨.generic, [x]⟩]

/-- Three packets; the first goes stale at 1100, and is to stay until 1500. -/
def exAdd : List Action :=
  [.setMinimumCacheLifetime 500, .add (exN 2) (.ok [1]) (some 100) 1000 (fun _ => true), .add (exN 1) (.ok [2]) none 1010 (fun _ => true),
   .add (exN 3) (.ok [3]) (some 5000) 1020 (fun _ => true)]

/-- C36, C37: the leftmost, the rightmost and the first fresh packet, and when there is none. -/
example : let n := (new 1000 0).run exAdd
    let a : Name := [⟨.generic, [65]⟩]
    (n.step (.onInterest a { name := a, childSelector := some 0 } 7 1200 true)).trace =
      n.trace ++ [.read 1200, .reply { name := a, childSelector := some 0 } 7 ⟨1, exN 1, [2]⟩ 1200] ∧
    (n.step (.onInterest a { name := a, childSelector := some 1 } 7 1200 true)).trace =
      n.trace ++ [.read 1200, .reply { name := a, childSelector := some 1 } 7 ⟨2, exN 3, [3]⟩ 1200] ∧
    (n.step (.onInterest a { name := a } 7 1200 true)).trace =
      n.trace ++ [.read 1200, .reply { name := a } 7 ⟨0, exN 2, [1]⟩ 1200] ∧
    (n.step (.onInterest a { name := a, mustBeFresh := true } 7 1200 true)).trace =
      n.trace ++ [.read 1200, .reply { name := a, mustBeFresh := true } 7 ⟨2, exN 3, [3]⟩ 1200] ∧
    (n.step (.onInterest a { name := [⟨.generic, [66]⟩] } 7 1200 true)).trace = n.trace ++ [.read 1200] := by
  decide +kernel

/-- `C37_removed`: at 2020 the first packet is gone; the interval is the point, at 1600 it is still sent although it was to stay
only until 1500. -/
example : let n := (new 1000 0).run exAdd
    let i : Interest := { name := exN 2 }
    (∀ r ∈ (0 : Int) :: readings n.trace, r + 1000 ≤ 2020) ∧
    (n.step (.onInterest [] i 7 2020 true)).trace = n.trace ++ [.read 2020] ∧
    (n.step (.onInterest [] { name := exN 1 } 7 2020 true)).trace = n.trace ++ [.read 2020, .reply { name := exN 1 } 7 ⟨1, exN 1, [2]⟩ 2020] ∧
    (n.step (.onInterest [] i 7 1600 true)).trace = n.trace ++ [.read 1600, .reply i 7 ⟨0, exN 2, [1]⟩ 1600] := by
  decide +kernel

/-- The hypotheses of `C37_replies` and `C37_child` hold for the packet /A/1. -/
example : let n := (new 1000 0).run exAdd
    let i : Interest := { name := [⟨.generic, [65]⟩], childSelector := some 0 }
    Reachable n ∧ ¬ EndsInAnyAny i.exclude ∧ Ev.added ⟨0, exN 2, [1]⟩ (some 100) 500 1000 ∈ n.trace ∧
    (∀ r ∈ readings n.trace ++ [1200], livesAt (some 100) 500 1000 r) ∧ accepts i ⟨0, exN 2, [1]⟩ (some 100) 1000 1200 := by
  refine ⟨⟨_, _, _, rfl⟩, ?_, by decide +kernel, ?_, by decide +kernel, ?_⟩
  · unfold EndsInAnyAny; simp
  · intro r hr f hf
    cases hf
    have : readings ((new 1000 0).run exAdd).trace ++ [1200] = [1000, 1010, 1020, 1200] := by decide +kernel
    rw [this] at hr
    simp at hr
    omega
  · intro h; cases h

/-- C38: two stored Interests; the packet /A/9 answers the one that has not timed out, once. -/
def exStore : List Action :=
  [.storePendingInterest { name := [⟨.generic, [65]⟩], lifetime := some 50 } 7 1000, .storePendingInterest { name := [⟨.generic, [65]⟩] } 8 1000]

example : let n := (new 1000 0).run exStore
    (n.run [.add (exN 9) (.ok [1]) none 2000 (fun _ => true), .add (exN 9) (.ok [2]) none 2001 (fun _ => true)]).trace =
      n.trace ++ [.read 2000, .added ⟨0, exN 9, [1]⟩ none 0 2000, .answer 1 8 ⟨0, exN 9, [1]⟩ 2000, .read 2001, .added ⟨1, exN 9, [2]⟩ none 0 2001] ∧
    (n.run [.add (exN 9) (.ok [1]) none 1049 (fun _ => true)]).trace =
      n.trace ++ [.read 1049, .added ⟨0, exN 9, [1]⟩ none 0 1049, .answer 1 8 ⟨0, exN 9, [1]⟩ 1049, .answer 0 7 ⟨0, exN 9, [1]⟩ 1049] := by
  decide +kernel

/-- Why `C36_answer_partial` is partial: a stored Interest that requires freshness is answered with a packet whose freshness period
is zero, to which `_onInterest` would not reply at the same time. -/
theorem C36_stale_answer : let n := (new 1000 0).run [.storePendingInterest { name := [], mustBeFresh := true } 7 1000, .add (exN 9) (.ok [1]) (some 0) 1000 (fun _ => true)]
    Ev.answer 0 7 ⟨0, exN 9, [1]⟩ 1000 ∈ n.trace ∧ ¬ isFreshAt (some 0) 1000 1000 ∧
    (n.step (.onInterest [] { name := [], mustBeFresh := true } 7 1000 true)).trace = n.trace ++ [.read 1000] := by
  refine ⟨by decide +kernel, ?_, by decide +kernel⟩
  intro h
  have := h 0 rfl
  omega

/-- Why `C38_all` needs `send` not to raise: sending the packet to face 8 raises, and then the Interest from face 7, which
also matches, is not answered either, although sending to face 7 would have succeeded. -/
theorem C38_send_raises : let n := (new 1000 0).run (exStore ++ [.add (exN 9) (.ok [1]) none 1010 (fun j => j == 0)])
    answered n.trace = [] := by
  decide +kernel

end ContentCache
end PyNDN
