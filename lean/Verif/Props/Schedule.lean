import Mathlib.Tactic.Linarith
import Mathlib.Algebra.Order.Floor.Ring
import Verif.Lemmas.Schedule
/-
C48-C49: intervals, schedules and group keys.
-/
namespace PyNDN
namespace Encrypt

/-! ### Interval -/

/-- An interval that the operations can meet. -/
def Good (i : Interval) : Prop := i.isValid = true ∧ i.startTime ≤ i.endTime

/-- C48: `covers` tells whether the time is in the interval. -/
theorem C48_covers {i : Interval} (h : i.isValid = true) (t : ℚ) : i.covers t = .ok (decide (Mem t i)) := by
  unfold Interval.covers Interval.isEmpty Mem
  rw [h]
  simp only [Bool.not_true, Bool.false_eq_true, if_false, bind, Except.bind, pure, Except.pure]
  by_cases he : i.startTime = i.endTime
  · simp [he]
  · simp only [he, beq_iff_eq, if_false]
    congr 1
    rw [Bool.eq_iff_iff]
    simp only [Bool.and_eq_true, decide_eq_true_iff]
    exact decide_eq_true_iff.symm

/-- C48: the intersection of two intervals has exactly the times that are in both. -/
theorem C48_intersect {i j : Interval} (hi : Good i) (hj : Good j) :
    ∃ k, i.intersectWith j = .ok k ∧ Good k ∧ ∀ t, Mem t k ↔ Mem t i ∧ Mem t j := by
  obtain ⟨hi1, hi2⟩ := hi
  obtain ⟨hj1, hj2⟩ := hj
  unfold Interval.intersectWith Interval.isEmpty Mem
  rw [hi1, hj1]
  simp only [Bool.not_true, Bool.false_eq_true, if_false, bind, Except.bind, pure, Except.pure]
  split
  · next h =>
    refine ⟨_, rfl, ⟨rfl, le_refl _⟩, fun t => ?_⟩
    simp only [Bool.or_eq_true, beq_iff_eq] at h
    constructor
    · rintro ⟨h1, h2⟩; exact absurd h2 (not_lt.mpr h1)
    · rintro ⟨⟨h1, h2⟩, h3, h4⟩
      rcases h with h | h
      · rw [h] at h1; exact absurd h2 (not_lt.mpr h1)
      · rw [h] at h3; exact absurd h4 (not_lt.mpr h3)
  · split
    · next h =>
      refine ⟨_, rfl, ⟨rfl, le_refl _⟩, fun t => ?_⟩
      constructor
      · rintro ⟨h1, h2⟩; exact absurd h2 (not_lt.mpr h1)
      · rintro ⟨⟨h1, h2⟩, h3, h4⟩
        rcases h with h | h <;> exfalso <;> linarith
    · next h0 h =>
      simp only [ge_iff_le, not_or, not_le] at h
      obtain ⟨h1, h2⟩ := h
      split <;> split <;> refine ⟨_, rfl, ⟨by first | rfl | exact hi1, ?_⟩, fun t => ?_⟩ <;> (try dsimp only at *) <;>
        first
          | linarith
          | (constructor
             · rintro ⟨a, b⟩
               exact ⟨⟨by linarith, by linarith⟩, by linarith, by linarith⟩
             · rintro ⟨⟨a, b⟩, c, d⟩
               exact ⟨by linarith, by linarith⟩)

/-- C48: the union of two intervals has exactly the times that are in one of them; it is refused if both are not empty and they have no time in common. -/
theorem C48_union {i j : Interval} (hi : Good i) (hj : Good j) :
    ((∀ t, ¬ Mem t i) ∨ (∀ t, ¬ Mem t j) ∨ (∃ t, Mem t i ∧ Mem t j) → ∃ k, i.unionWith j = .ok k ∧ Good k ∧ ∀ t, Mem t k ↔ Mem t i ∨ Mem t j) ∧
    ((∃ t, Mem t i) → (∃ t, Mem t j) → (∀ t, ¬ (Mem t i ∧ Mem t j)) → i.unionWith j = .error .runtime) := by
  obtain ⟨hi1, hi2⟩ := hi
  obtain ⟨hj1, hj2⟩ := hj
  have none : ∀ {k : Interval}, k.startTime ≤ k.endTime → ((∀ t, ¬ Mem t k) ↔ k.startTime = k.endTime) := by
    intro k hk
    unfold Mem
    constructor
    · intro h
      by_contra hne
      exact h k.startTime ⟨le_refl _, lt_of_le_of_ne hk hne⟩
    · intro h t ⟨h1, h2⟩
      rw [h] at h1
      exact absurd h2 (not_lt.mpr h1)
  rw [none hi2, none hj2]
  have ei : (∃ t, Mem t i) ↔ ¬ i.startTime = i.endTime := by rw [← none hi2]; push Not; rfl
  have ej : (∃ t, Mem t j) ↔ ¬ j.startTime = j.endTime := by rw [← none hj2]; push Not; rfl
  rw [ei, ej]
  unfold Interval.unionWith Interval.isEmpty
  rw [hi1, hj1]
  simp only [Bool.not_true, Bool.false_eq_true, if_false, bind, Except.bind, pure, Except.pure, beq_iff_eq]
  by_cases h1 : i.startTime = i.endTime
  · rw [if_pos h1]
    refine ⟨fun _ => ⟨_, rfl, ⟨rfl, hj2⟩, fun t => ?_⟩, fun h => absurd h1 h⟩
    exact ⟨fun h => .inr h, fun h => h.resolve_left ((none hi2).mpr h1 t)⟩
  rw [if_neg h1]
  by_cases h2 : j.startTime = j.endTime
  · rw [if_pos h2]
    refine ⟨fun _ => ⟨_, rfl, ⟨hi1, hi2⟩, fun t => ?_⟩, fun _ h => absurd h2 h⟩
    exact ⟨fun h => .inl h, fun h => h.resolve_right ((none hj2).mpr h2 t)⟩
  rw [if_neg h2]
  have l1 : i.startTime < i.endTime := lt_of_le_of_ne hi2 h1
  have l2 : j.startTime < j.endTime := lt_of_le_of_ne hj2 h2
  unfold Mem
  by_cases h3 : i.startTime ≥ j.endTime ∨ i.endTime ≤ j.startTime
  · rw [if_pos h3]
    refine ⟨?_, fun _ _ _ => rfl⟩
    rintro (h | h | ⟨t, ⟨a, b⟩, c, d⟩)
    · exact absurd h h1
    · exact absurd h h2
    · exfalso
      rcases h3 with h3 | h3 <;> linarith
  · rw [if_neg h3]
    simp only [ge_iff_le, not_or, not_le] at h3
    obtain ⟨h3, h4⟩ := h3
    refine ⟨fun _ => ?_, fun _ _ h => ?_⟩
    · split <;> split <;> refine ⟨_, rfl, ⟨by first | rfl | exact hi1, ?_⟩, fun t => ?_⟩ <;> (try dsimp only at *) <;>
        first
          | linarith
          | (constructor
             · rintro ⟨a, b⟩
               by_cases hc : i.startTime ≤ t ∧ t < i.endTime
               · exact .inl hc
               · refine .inr ?_
                 rw [not_and_or, not_le, not_lt] at hc
                 rcases hc with hc | hc <;> exact ⟨by linarith, by linarith⟩
             · rintro (⟨a, b⟩ | ⟨a, b⟩) <;> exact ⟨by linarith, by linarith⟩)
    · exfalso
      exact h (max i.startTime j.startTime) ⟨⟨le_max_left _ _, max_lt l1 h4⟩, le_max_right _ _, max_lt h3 l2⟩

/-! ### RepetitiveInterval and the sets of a schedule -/

/-- C48: the constructor accepts exactly proper values, and what it makes is proper. -/
theorem C48_make {a b : ℚ} {sh eh : Int} {n : Option Int} {u : Option Nat} {r : RepetitiveInterval} (h : RepetitiveInterval.make a b sh eh n u = .ok r) :
    Proper r ∧ r.startHour = sh ∧ r.endHour = eh ∧ (NotLast a → r.startDate = midnight a) ∧ (NotLast b → r.endDate = midnight b) ∧
      r.startDate ≤ r.endDate ∧ (r.repeatUnit = 0 → r.startDate = r.endDate) ∧ (∀ k, n = some k → r.nRepeats = k) ∧ ∀ k, u = some k → r.repeatUnit = k := by
  unfold RepetitiveInterval.make at h
  dsimp only at h
  split at h
  · cases h
  split at h
  · cases h
  split at h
  · cases h
  split at h
  · cases h
  split at h
  · cases h
  next h1 h2 h3 h4 h5 =>
  injection h with h
  subst h
  dsimp only at *
  refine ⟨⟨⟨pyRound a / msDay, ?_⟩, by dsimp only; omega, by dsimp only; omega, by dsimp only; omega⟩, rfl, rfl, fun h => toDateOnly_eq h, fun h => toDateOnly_eq h, by omega, ?_, ?_, ?_⟩
  · show toDateOnly a = _
    unfold toDateOnly msDay
    dsimp only
    omega
  · intro h
    by_contra hne
    exact h5 ⟨h, hne⟩
  · rintro k rfl; rfl
  · rintro k rfl; rfl

theorem cmp_eq_zero {a b rest : Int} : RepetitiveInterval.cmp a b rest = 0 ↔ a = b ∧ rest = 0 := by
  unfold RepetitiveInterval.cmp
  split
  · constructor
    · intro h; cases h
    · rintro ⟨rfl, _⟩; omega
  · split
    · constructor
      · intro h; cases h
      · rintro ⟨rfl, _⟩; omega
    · constructor
      · intro h; exact ⟨by omega, h⟩
      · rintro ⟨_, h⟩; exact h

theorem compare_eq_zero {r s : RepetitiveInterval} : r.compare s = 0 ↔ r = s := by
  unfold RepetitiveInterval.compare
  simp only [cmp_eq_zero]
  constructor
  · rintro ⟨h1, h2, h3, h4, h5, h6, _⟩
    cases r; cases s
    simp only [RepetitiveInterval.mk.injEq] at *
    exact ⟨h1, h2, h3, h4, h5, by omega⟩
  · rintro rfl
    exact ⟨rfl, rfl, rfl, rfl, rfl, rfl, trivial⟩

theorem mem_sortedSetAdd {r x : RepetitiveInterval} {l : List RepetitiveInterval} : x ∈ Schedule.sortedSetAdd r l ↔ x = r ∨ x ∈ l := by
  induction l with
  | nil => simp [Schedule.sortedSetAdd]
  | cons y l ih =>
    unfold Schedule.sortedSetAdd
    dsimp only
    split
    · next h =>
      rw [compare_eq_zero] at h
      subst h
      simp
    · split
      · simp
      · simp only [List.mem_cons, ih]
        constructor
        · rintro (h | h | h)
          · exact .inr (.inl h)
          · exact .inl h
          · exact .inr (.inr h)
        · rintro (h | h | h)
          · exact .inr (.inl h)
          · exact .inl h
          · exact .inr (.inr h)

/-- C48: after an interval is added, the schedule allows exactly what it then should. -/
theorem C48_add (s : Schedule) (r : RepetitiveInterval) (t : ℚ) :
    (Allowed (s.addWhite r) t ↔ (InRepeated r t ∨ ∃ x ∈ s.white, InRepeated x t) ∧ ¬ ∃ x ∈ s.black, InRepeated x t) ∧
    (Allowed (s.addBlack r) t ↔ Allowed s t ∧ ¬ InRepeated r t) := by
  unfold Allowed Schedule.addWhite Schedule.addBlack
  dsimp only
  simp only [mem_sortedSetAdd]
  constructor
  · constructor
    · rintro ⟨⟨x, rfl | h, hx⟩, h2⟩
      · exact ⟨.inl hx, h2⟩
      · exact ⟨.inr ⟨x, h, hx⟩, h2⟩
    · rintro ⟨h | ⟨x, h, hx⟩, h2⟩
      · exact ⟨⟨r, .inl rfl, h⟩, h2⟩
      · exact ⟨⟨x, .inr h, hx⟩, h2⟩
  · constructor
    · rintro ⟨h1, h2⟩
      exact ⟨⟨h1, fun ⟨x, h, hx⟩ => h2 ⟨x, .inr h, hx⟩⟩, fun h => h2 ⟨r, .inl rfl, h⟩⟩
    · rintro ⟨⟨h1, h2⟩, h3⟩
      refine ⟨h1, ?_⟩
      rintro ⟨x, rfl | h, hx⟩
      · exact h3 hx
      · exact h2 ⟨x, h, hx⟩

/-! ### Schedule -/

/-- The positive result after the intervals `L`. -/
def PosOk (t : ℚ) (L : List RepetitiveInterval) (pos : Interval) : Prop :=
  Good pos ∧ (∀ t', Mem t' pos → ∃ r ∈ L, InRepeated r t') ∧ ((∃ r ∈ L, InRepeated r t) → Mem t pos) ∧ ((∃ t', Mem t' pos) → Mem t pos)

/-- The negative result after the intervals `L`. -/
def NegOk (t : ℚ) (L : List RepetitiveInterval) (neg : Interval) : Prop :=
  (neg.isValid = false ∧ ∀ r ∈ L, InRepeated r t) ∨
  (Good neg ∧ Mem t neg ∧ (∃ r ∈ L, ¬ InRepeated r t) ∧ ∀ t', Mem t' neg → ∀ r ∈ L, ¬ InRepeated r t → ¬ InRepeated r t')

/-- The time can be asked about with this schedule. -/
def Askable (l : List RepetitiveInterval) (t : ℚ) : Prop :=
  NotLast t ∧ InCalendar (midnight t) ∧ ∀ r ∈ l, Usable r ∧ NotAtEnd r t

theorem good_of_mem {i : Interval} {t : ℚ} (h : i.isValid = true) (hm : Mem t i) : Good i := ⟨h, by obtain ⟨a, b⟩ := hm; linarith⟩

theorem calculate_spec {t : ℚ} {l : List RepetitiveInterval} (hl : Askable l t) :
    ∀ {L pos neg}, PosOk t L pos → NegOk t L neg →
      ∃ pos' neg', Schedule.calculate t l pos neg = .ok (pos', neg') ∧ PosOk t (L ++ l) pos' ∧ NegOk t (L ++ l) neg' := by
  induction l with
  | nil =>
    intro L pos neg hp hn
    exact ⟨pos, neg, rfl, by simpa using hp, by simpa using hn⟩
  | cons x l ih =>
    intro L pos neg hp hn
    obtain ⟨h1, h2, h3⟩ := hl
    have ih := @ih ⟨h1, h2, fun r hr => h3 r (List.mem_cons_of_mem _ hr)⟩
    obtain ⟨hx1, hx2⟩ := h3 x (List.mem_cons_self ..)
    obtain ⟨p, i, hg, hv, hpi, hmem, hall⟩ := getInterval_spec hx1 h1 h2 hx2
    have gi := good_of_mem hv hmem
    unfold Schedule.calculate
    rw [hg]
    simp only [bind, Except.bind]
    have app : L ++ x :: l = (L ++ [x]) ++ l := by simp
    rw [app]
    cases p with
    | true =>
      have hin : InRepeated x t := hpi.mp rfl
      simp only [if_true]
      obtain ⟨gp, p1, p2, p3⟩ := hp
      have hu : (∀ t', ¬ Mem t' pos) ∨ (∀ t', ¬ Mem t' i) ∨ (∃ t', Mem t' pos ∧ Mem t' i) := by
        by_cases he : ∃ t', Mem t' pos
        · exact .inr (.inr ⟨t, p3 he, hmem⟩)
        · exact .inl (fun t' ht' => he ⟨t', ht'⟩)
      obtain ⟨k, hk, gk, hkm⟩ := (C48_union gp gi).1 hu
      rw [hk]
      refine ih ⟨gk, ?_, ?_, ?_⟩ ?_
      · intro t' ht'
        rcases (hkm t').mp ht' with h | h
        · obtain ⟨r, hr, hri⟩ := p1 t' h
          exact ⟨r, List.mem_append_left _ hr, hri⟩
        · exact ⟨x, by simp, (hall t' h).mpr hin⟩
      · intro _; exact (hkm t).mpr (.inr hmem)
      · intro _; exact (hkm t).mpr (.inr hmem)
      · rcases hn with ⟨a, b⟩ | ⟨a, b, ⟨r, hr, hri⟩, c⟩
        · refine .inl ⟨a, ?_⟩
          intro r hr
          rcases List.mem_append.mp hr with h | h
          · exact b r h
          · rw [List.mem_singleton.mp h]; exact hin
        · refine .inr ⟨a, b, ⟨r, List.mem_append_left _ hr, hri⟩, ?_⟩
          intro t' ht' r hr hno
          rcases List.mem_append.mp hr with h | h
          · exact c t' ht' r h hno
          · rw [List.mem_singleton.mp h] at hno; exact absurd hin hno
    | false =>
      have hnot : ¬ InRepeated x t := fun h => by have := hpi.mpr h; cases this
      simp only [Bool.false_eq_true, if_false]
      have hpos : PosOk t (L ++ [x]) pos := by
        obtain ⟨gp, p1, p2, p3⟩ := hp
        refine ⟨gp, ?_, ?_, p3⟩
        · intro t' ht'
          obtain ⟨r, hr, hri⟩ := p1 t' ht'
          exact ⟨r, List.mem_append_left _ hr, hri⟩
        · rintro ⟨r, hr, hri⟩
          rcases List.mem_append.mp hr with h | h
          · exact p2 ⟨r, h, hri⟩
          · rw [List.mem_singleton.mp h] at hri; exact absurd hri hnot
      rcases hn with ⟨a, b⟩ | ⟨a, b, ⟨r, hr, hri⟩, c⟩
      · rw [a]
        simp only [Bool.not_false, if_true]
        refine ih hpos (.inr ⟨gi, hmem, ⟨x, by simp, hnot⟩, ?_⟩)
        intro t' ht' r hr hno
        rcases List.mem_append.mp hr with h | h
        · exact absurd (b r h) hno
        · rw [List.mem_singleton.mp h]
          exact fun hh => hnot ((hall t' ht').mp hh)
      · rw [a.1]
        simp only [Bool.not_true, Bool.false_eq_true, if_false]
        obtain ⟨k, hk, gk, hkm⟩ := C48_intersect a gi
        rw [hk]
        refine ih hpos (.inr ⟨gk, (hkm t).mpr ⟨b, hmem⟩, ⟨r, List.mem_append_left _ hr, hri⟩, ?_⟩)
        intro t' ht' r hr hno
        obtain ⟨m1, m2⟩ := (hkm t').mp ht'
        rcases List.mem_append.mp hr with h | h
        · exact c t' m1 r h hno
        · rw [List.mem_singleton.mp h]
          exact fun hh => hnot ((hall t' m2).mp hh)

theorem calculate_start {t : ℚ} {l : List RepetitiveInterval} (hl : Askable l t) :
    ∃ pos neg, Schedule.calculate t l (.empty true) (.empty false) = .ok (pos, neg) ∧ PosOk t l pos ∧ NegOk t l neg := by
  have h := calculate_spec hl (L := []) (pos := .empty true) (neg := .empty false)
    ⟨⟨rfl, le_refl _⟩, (fun t' h => absurd (lt_of_le_of_lt h.1 h.2) (lt_irrefl _)), (by rintro ⟨r, hr, _⟩; cases hr),
      (fun ⟨t', h⟩ => absurd (lt_of_le_of_lt h.1 h.2) (lt_irrefl _))⟩
    (.inl ⟨rfl, fun r hr => by cases hr⟩)
  simpa using h

theorem isEmpty_iff {i : Interval} (h : Good i) : ∃ b, i.isEmpty = .ok b ∧ (b = false ↔ ∃ t, Mem t i) := by
  refine ⟨i.startTime == i.endTime, by unfold Interval.isEmpty; rw [h.1]; rfl, ?_⟩
  rw [beq_eq_false_iff_ne]
  constructor
  · intro hne
    exact ⟨i.startTime, le_refl _, lt_of_le_of_ne h.2 hne⟩
  · rintro ⟨t, h1, h2⟩ he
    rw [he] at h1
    exact absurd (lt_of_le_of_lt h1 h2) (lt_irrefl _)

/-- C48: a schedule answers for a time whether access is allowed then, with an interval that has the time, and at every time in which the answer is the
same.  Excluded (see the witnesses): the last half millisecond of a day, a time at which an interval ends, and intervals with `nRepeats` 0. -/
theorem C48_verdict_partial {s : Schedule} {t : ℚ} (h : Askable (s.white ++ s.black) t) :
    ∃ p i, s.getCoveringInterval t = .ok (p, i) ∧ i.isValid = true ∧ (p = true ↔ Allowed s t) ∧ Mem t i ∧
      ∀ t', Mem t' i → (Allowed s t' ↔ Allowed s t) := by
  obtain ⟨h1, h2, h3⟩ := h
  obtain ⟨bp, bn, hb, ⟨gb, b1, b2, b3⟩, hbn⟩ := calculate_start (t := t) (l := s.black) ⟨h1, h2, fun r hr => h3 r (List.mem_append_right _ hr)⟩
  obtain ⟨wp, wn, hw, ⟨gw, w1, w2, w3⟩, hwn⟩ := calculate_start (t := t) (l := s.white) ⟨h1, h2, fun r hr => h3 r (List.mem_append_left _ hr)⟩
  obtain ⟨eb, heb, hebi⟩ := isEmpty_iff gb
  obtain ⟨ew, hew, hewi⟩ := isEmpty_iff gw
  unfold Schedule.getCoveringInterval
  rw [hb]
  simp only [bind, Except.bind, pure, Except.pure, heb]
  cases eb with
  | false =>
    simp only [Bool.not_false, if_true]
    have hm := b3 (hebi.mp rfl)
    have hna : ∀ t', Mem t' bp → ¬ Allowed s t' := fun t' ht' ha => ha.2 (b1 t' ht')
    exact ⟨false, bp, rfl, gb.1, ⟨(fun h => by cases h), fun h => absurd h (hna t hm)⟩, hm,
      fun t' ht' => ⟨fun h => absurd h (hna t' ht'), fun h => absurd h (hna t hm)⟩⟩
  | true =>
    have nob : ¬ ∃ r ∈ s.black, InRepeated r t := fun h => by
      have := hebi.mpr ⟨t, b2 h⟩; cases this
    simp only [Bool.not_true, Bool.false_eq_true, if_false, hw, hew]
    cases ew with
    | false =>
      have hm := w3 (hewi.mp rfl)
      simp only [Bool.false_and, Bool.false_eq_true, if_false, Bool.not_false, if_true]
      have hal : Allowed s t := ⟨w1 t hm, nob⟩
      rcases hbn with ⟨a, b⟩ | ⟨a, b, _, c⟩
      · rw [a]
        simp only [Bool.false_eq_true, if_false]
        have hnil : ∀ r, r ∉ s.black := fun r hr => nob ⟨r, hr, b r hr⟩
        refine ⟨true, wp, rfl, gw.1, ⟨fun _ => hal, fun _ => rfl⟩, hm, fun t' ht' => ⟨fun _ => hal, fun _ => ⟨w1 t' ht', ?_⟩⟩⟩
        rintro ⟨r, hr, _⟩
        exact hnil r hr
      · rw [a.1]
        simp only [if_true]
        obtain ⟨k, hk, gk, hkm⟩ := C48_intersect gw a
        rw [hk]
        refine ⟨true, k, rfl, gk.1, ⟨fun _ => hal, fun _ => rfl⟩, (hkm t).mpr ⟨hm, b⟩, fun t' ht' => ⟨fun _ => hal, fun _ => ⟨w1 t' ((hkm t').mp ht').1, ?_⟩⟩⟩
        rintro ⟨r, hr, hri⟩
        exact c t' ((hkm t').mp ht').2 r hr (fun h => nob ⟨r, hr, h⟩) hri
    | true =>
      have now : ¬ ∃ r ∈ s.white, InRepeated r t := fun h => by
        have := hewi.mpr ⟨t, w2 h⟩; cases this
      have hna : ¬ Allowed s t := fun h => now h.1
      rcases hwn with ⟨a, b⟩ | ⟨a, b, _, c⟩
      · have hnil : ∀ r, r ∉ s.white := fun r hr => now ⟨r, hr, b r hr⟩
        rw [a]
        have m1 := midnight_le t
        have m2 := lt_midnight t
        simp only [Bool.true_and, Bool.not_false, if_true, toDateOnly_eq h1, Interval.ofTimes, msDay]
        push_cast
        rw [if_neg (by rw [not_not]; linarith)]
        refine ⟨false, _, rfl, rfl, ⟨(fun h => by cases h), fun h => absurd h hna⟩, ⟨m1, by dsimp only; linarith⟩, fun t' _ => ⟨?_, fun h => absurd h hna⟩⟩
        rintro ⟨⟨r, hr, _⟩, _⟩
        exact absurd hr (hnil r)
      · rw [a.1]
        simp only [Bool.true_and, Bool.not_true, Bool.false_eq_true, if_false]
        refine ⟨false, wn, rfl, a.1, ⟨(fun h => by cases h), fun h => absurd h hna⟩, b, fun t' ht' => ⟨?_, fun h => absurd h hna⟩⟩
        rintro ⟨⟨r, hr, hri⟩, _⟩
        exact absurd hri (c t' ht' r hr (fun h => now ⟨r, hr, h⟩))

/-! ### Group keys -/

variable {κ β : Type} [DecidableEq κ]

theorem mem_addAll {ms keys : List (κ × β)} :
    (∀ m ∈ GroupManager.addAll keys ms, m ∈ keys ∨ m ∈ ms) ∧
    ∀ n, (∃ k, (n, k) ∈ GroupManager.addAll keys ms) ↔ (∃ k, (n, k) ∈ keys) ∨ ∃ k, (n, k) ∈ ms := by
  unfold GroupManager.addAll
  induction ms generalizing keys with
  | nil => simp
  | cons a ms ih =>
    obtain ⟨ih1, ih2⟩ := ih (keys := keys.filter (fun k => k.1 ≠ a.1) ++ [a])
    simp only [List.foldl_cons]
    constructor
    · intro m hm
      rcases ih1 m hm with h | h
      · rcases List.mem_append.mp h with h | h
        · exact .inl (List.mem_filter.mp h).1
        · exact .inr (by rw [List.mem_singleton.mp h]; simp)
      · exact .inr (List.mem_cons_of_mem _ h)
    · intro n
      rw [ih2]
      obtain ⟨n0, k0⟩ := a
      by_cases hn : n = n0
      · subst hn
        constructor
        · intro _; exact .inr ⟨k0, by simp⟩
        · intro _; exact .inl ⟨k0, by simp⟩
      · simp [hn]

theorem loop_spec {t : ℚ} {gs : List (GroupSchedule κ β)} (hgs : ∀ g ∈ gs, Askable (g.schedule.white ++ g.schedule.black) t) :
    ∀ {G pos neg keys},
      ((pos.isValid = false ∧ ∀ g ∈ G, ¬ Allowed g.schedule t) ∨
        (pos.isValid = true ∧ Mem t pos ∧ (∃ g ∈ G, Allowed g.schedule t) ∧ ∀ t', Mem t' pos → ∀ g ∈ G, Allowed g.schedule t → Allowed g.schedule t')) →
      ((neg.isValid = false ∧ ∀ g ∈ G, Allowed g.schedule t) ∨
        (neg.isValid = true ∧ Mem t neg ∧ ∀ t', Mem t' neg → ∀ g ∈ G, ¬ Allowed g.schedule t → ¬ Allowed g.schedule t')) →
      ((∀ m ∈ keys, ∃ g ∈ G, Allowed g.schedule t ∧ m ∈ g.members) ∧
        ∀ n, (∃ k, (n, k) ∈ keys) ↔ ∃ g ∈ G, Allowed g.schedule t ∧ ∃ k, (n, k) ∈ g.members) →
      ∃ pos' neg' keys', GroupManager.loop t gs pos neg keys = .ok (pos', neg', keys') ∧
        ((pos'.isValid = false ∧ ∀ g ∈ G ++ gs, ¬ Allowed g.schedule t) ∨
          (pos'.isValid = true ∧ Mem t pos' ∧ (∃ g ∈ G ++ gs, Allowed g.schedule t) ∧
            ∀ t', Mem t' pos' → ∀ g ∈ G ++ gs, Allowed g.schedule t → Allowed g.schedule t')) ∧
        ((neg'.isValid = false ∧ ∀ g ∈ G ++ gs, Allowed g.schedule t) ∨
          (neg'.isValid = true ∧ Mem t neg' ∧ ∀ t', Mem t' neg' → ∀ g ∈ G ++ gs, ¬ Allowed g.schedule t → ¬ Allowed g.schedule t')) ∧
        (∀ m ∈ keys', ∃ g ∈ G ++ gs, Allowed g.schedule t ∧ m ∈ g.members) ∧
        ∀ n, (∃ k, (n, k) ∈ keys') ↔ ∃ g ∈ G ++ gs, Allowed g.schedule t ∧ ∃ k, (n, k) ∈ g.members := by
  induction gs with
  | nil =>
    intro G pos neg keys hp hn hk
    exact ⟨pos, neg, keys, rfl, by simpa using hp, by simpa using hn, by simpa using hk⟩
  | cons x gs ih =>
    intro G pos neg keys hp hn hk
    have ih := @ih (fun g hg => hgs g (List.mem_cons_of_mem _ hg))
    obtain ⟨p, i, hg, hv, hpi, hmem, hall⟩ := C48_verdict_partial (hgs x (List.mem_cons_self ..))
    have gi := good_of_mem hv hmem
    have app : G ++ x :: gs = (G ++ [x]) ++ gs := by simp
    rw [app]
    unfold GroupManager.loop
    rw [hg]
    simp only [bind, Except.bind]
    have last : ∀ {P : GroupSchedule κ β → Prop}, (∀ g ∈ G, P g) → P x → ∀ g ∈ G ++ [x], P g := by
      intro P h1 h2 g hg
      rcases List.mem_append.mp hg with h | h
      · exact h1 g h
      · rw [List.mem_singleton.mp h]; exact h2
    have keysOk : ∀ {ks : List (κ × β)}, (Allowed x.schedule t → ks = GroupManager.addAll keys x.members) → (¬ Allowed x.schedule t → ks = keys) →
        (∀ m ∈ ks, ∃ g ∈ G ++ [x], Allowed g.schedule t ∧ m ∈ g.members) ∧
        ∀ n, (∃ k, (n, k) ∈ ks) ↔ ∃ g ∈ G ++ [x], Allowed g.schedule t ∧ ∃ k, (n, k) ∈ g.members := by
      intro ks k1 k2
      obtain ⟨hk1, hk2⟩ := hk
      by_cases ha : Allowed x.schedule t
      · rw [k1 ha]
        obtain ⟨a1, a2⟩ := mem_addAll (ms := x.members) (keys := keys)
        constructor
        · intro m hm
          rcases a1 m hm with h | h
          · obtain ⟨g, hg, hh⟩ := hk1 m h
            exact ⟨g, List.mem_append_left _ hg, hh⟩
          · exact ⟨x, by simp, ha, h⟩
        · intro n
          rw [a2, hk2]
          constructor
          · rintro (⟨g, hg, hh⟩ | h)
            · exact ⟨g, List.mem_append_left _ hg, hh⟩
            · exact ⟨x, by simp, ha, h⟩
          · rintro ⟨g, hg, hh⟩
            rcases List.mem_append.mp hg with h | h
            · exact .inl ⟨g, h, hh⟩
            · rw [List.mem_singleton.mp h] at hh; exact .inr hh.2
      · rw [k2 ha]
        constructor
        · intro m hm
          obtain ⟨g, hg, hh⟩ := hk1 m hm
          exact ⟨g, List.mem_append_left _ hg, hh⟩
        · intro n
          rw [hk2]
          constructor
          · rintro ⟨g, hg, hh⟩
            exact ⟨g, List.mem_append_left _ hg, hh⟩
          · rintro ⟨g, hg, hh⟩
            rcases List.mem_append.mp hg with h | h
            · exact ⟨g, h, hh⟩
            · rw [List.mem_singleton.mp h] at hh; exact absurd hh.1 ha
    cases p with
    | true =>
      have ha : Allowed x.schedule t := hpi.mp rfl
      simp only [if_true]
      have hn' : (neg.isValid = false ∧ ∀ g ∈ G ++ [x], Allowed g.schedule t) ∨
          (neg.isValid = true ∧ Mem t neg ∧ ∀ t', Mem t' neg → ∀ g ∈ G ++ [x], ¬ Allowed g.schedule t → ¬ Allowed g.schedule t') := by
        rcases hn with ⟨a, b⟩ | ⟨a, b, c⟩
        · exact .inl ⟨a, last b ha⟩
        · exact .inr ⟨a, b, fun t' ht' => last (c t' ht') (fun h => absurd ha h)⟩
      have hk' := keysOk (ks := GroupManager.addAll keys x.members) (fun _ => rfl) (fun h => absurd ha h)
      rcases hp with ⟨a, b⟩ | ⟨a, b, _, c⟩
      · rw [a]
        simp only [Bool.not_false, if_true]
        obtain ⟨k, hk3, gk, hkm⟩ := C48_intersect gi gi
        rw [hk3]
        refine ih (.inr ⟨gk.1, (hkm t).mpr ⟨hmem, hmem⟩, ⟨x, by simp, ha⟩, fun t' ht' => last ?_ ?_⟩) hn' hk'
        · exact fun g hg h => absurd h (b g hg)
        · exact fun _ => (hall t' ((hkm t').mp ht').1).mpr ha
      · rw [a]
        simp only [Bool.not_true, Bool.false_eq_true, if_false]
        obtain ⟨k, hk3, gk, hkm⟩ := C48_intersect (good_of_mem a b) gi
        rw [hk3]
        refine ih (.inr ⟨gk.1, (hkm t).mpr ⟨b, hmem⟩, ⟨x, by simp, ha⟩, fun t' ht' => last ?_ ?_⟩) hn' hk'
        · exact fun g hg h => c t' ((hkm t').mp ht').1 g hg h
        · exact fun _ => (hall t' ((hkm t').mp ht').2).mpr ha
    | false =>
      have ha : ¬ Allowed x.schedule t := fun h => by have := hpi.mpr h; cases this
      simp only [Bool.false_eq_true, if_false]
      have hp' : (pos.isValid = false ∧ ∀ g ∈ G ++ [x], ¬ Allowed g.schedule t) ∨
          (pos.isValid = true ∧ Mem t pos ∧ (∃ g ∈ G ++ [x], Allowed g.schedule t) ∧
            ∀ t', Mem t' pos → ∀ g ∈ G ++ [x], Allowed g.schedule t → Allowed g.schedule t') := by
        rcases hp with ⟨a, b⟩ | ⟨a, b, ⟨g, hg, hh⟩, c⟩
        · exact .inl ⟨a, last b ha⟩
        · exact .inr ⟨a, b, ⟨g, List.mem_append_left _ hg, hh⟩, fun t' ht' => last (c t' ht') (fun h => absurd h ha)⟩
      have hk' := keysOk (ks := keys) (fun h => absurd h ha) (fun _ => rfl)
      rcases hn with ⟨a, b⟩ | ⟨a, b, c⟩
      · rw [a]
        simp only [Bool.not_false, if_true]
        obtain ⟨k, hk3, gk, hkm⟩ := C48_intersect gi gi
        rw [hk3]
        refine ih hp' (.inr ⟨gk.1, (hkm t).mpr ⟨hmem, hmem⟩, fun t' ht' => last ?_ ?_⟩) hk'
        · exact fun g hg h => absurd (b g hg) h
        · exact fun _ h => ha ((hall t' ((hkm t').mp ht').1).mp h)
      · rw [a]
        simp only [Bool.not_true, Bool.false_eq_true, if_false]
        obtain ⟨k, hk3, gk, hkm⟩ := C48_intersect (good_of_mem a b) gi
        rw [hk3]
        refine ih hp' (.inr ⟨gk.1, (hkm t).mpr ⟨b, hmem⟩, fun t' ht' => last ?_ ?_⟩) hk'
        · exact fun g hg h => c t' ((hkm t').mp ht').1 g hg h
        · exact fun _ h => ha ((hall t' ((hkm t').mp ht').2).mp h)

/-- C49: the group key made for a time slot goes to exactly the members whose schedule allows the time slot, and there is one iff there is such a schedule;
its interval has the time slot, and at every time in it each schedule allows what it allows at the time slot. -/
theorem C49_group_partial {gs : List (GroupSchedule κ β)} {t : ℚ} (h : ∀ g ∈ gs, Askable (g.schedule.white ++ g.schedule.black) t) :
    ∃ i keys, GroupManager.calculateInterval gs t = .ok (i, keys) ∧
      (∀ m ∈ keys, ∃ g ∈ gs, Allowed g.schedule t ∧ m ∈ g.members) ∧
      (∀ n, (∃ k, (n, k) ∈ keys) ↔ ∃ g ∈ gs, Allowed g.schedule t ∧ ∃ k, (n, k) ∈ g.members) ∧
      (i.isValid = true ↔ ∃ g ∈ gs, Allowed g.schedule t) ∧
      (i.isValid = true → Mem t i ∧ ∀ t', Mem t' i → ∀ g ∈ gs, Allowed g.schedule t' ↔ Allowed g.schedule t) := by
  obtain ⟨pos, neg, keys, hl, hp, hn, hk⟩ := loop_spec h (G := []) (pos := .empty false) (neg := .empty false) (keys := [])
    (.inl ⟨rfl, by simp⟩) (.inl ⟨rfl, by simp⟩) (by simp)
  simp only [List.nil_append] at hp hn hk
  unfold GroupManager.calculateInterval
  rw [hl]
  simp only [bind, Except.bind, pure, Except.pure]
  rcases hp with ⟨a, b⟩ | ⟨a, b, ex, c⟩
  · rw [a]
    simp only [Bool.not_false, if_true]
    refine ⟨_, _, rfl, hk.1, hk.2, ⟨(fun h => by cases h), ?_⟩, fun h => by cases h⟩
    rintro ⟨g, hg, hh⟩
    exact absurd hh (b g hg)
  · rw [a]
    simp only [Bool.not_true, Bool.false_eq_true, if_false]
    rcases hn with ⟨na, nb⟩ | ⟨na, nb, nc⟩
    · rw [na]
      simp only [Bool.false_eq_true, if_false]
      refine ⟨_, _, rfl, hk.1, hk.2, ⟨fun _ => ex, fun _ => a⟩, fun _ => ⟨b, fun t' ht' g hg => ⟨fun _ => nb g hg, c t' ht' g hg⟩⟩⟩
    · rw [na]
      simp only [if_true]
      obtain ⟨k, hk3, gk, hkm⟩ := C48_intersect (good_of_mem a b) (good_of_mem na nb)
      rw [hk3]
      refine ⟨_, _, rfl, hk.1, hk.2, ⟨fun _ => ex, fun _ => gk.1⟩, fun _ => ⟨(hkm t).mpr ⟨b, nb⟩, fun t' ht' g hg => ⟨?_, c t' ((hkm t').mp ht').1 g hg⟩⟩⟩
      intro hh
      by_contra hno
      exact nc t' ((hkm t').mp ht').2 g hg hno hh

/-! ### Cases -/

/-- 2015-08-25, 0:00. -/
def exDay : Int := 1440460800000

theorem exDay_date : IsDate exDay 2015 8 25 := by decide +kernel

/-- From 5 to 10 o'clock on every second day until 2015-09-04. -/
def exWhite : RepetitiveInterval := ⟨exDay, exDay + 10 * 86400000, 5, 10, 2, 1⟩

/-- From 9 to 12 o'clock on 2015-08-27. -/
def exBlack : RepetitiveInterval := ⟨exDay + 2 * 86400000, exDay + 2 * 86400000, 9, 12, 0, 0⟩

def exSchedule : Schedule := (Schedule.addWhite {} exWhite).addBlack exBlack

/-- 2015-08-27, 6:00. -/
def exTime : ℚ := 1440460800000 + 2 * 86400000 + 6 * 3600000

theorem exTime_midnight : midnight exTime = exDay + 2 * 86400000 := by decide +kernel

theorem exSchedule_askable : Askable (exSchedule.white ++ exSchedule.black) exTime := by
  refine ⟨by unfold NotLast; decide +kernel, ⟨2015, 8, 27, by decide +kernel⟩, ?_⟩
  have e : exSchedule.white ++ exSchedule.black = [exWhite, exBlack] := by decide +kernel
  rw [e]
  intro r hr
  simp only [List.mem_cons, List.not_mem_nil, or_false] at hr
  rcases hr with rfl | rfl
  · exact ⟨⟨⟨⟨16672, by decide⟩, by decide⟩, by decide, 2015, 8, 25, by decide +kernel⟩, by unfold NotAtEnd; decide +kernel⟩
  · exact ⟨⟨⟨⟨16674, by decide⟩, by decide⟩, (fun h => absurd rfl h), 2015, 8, 27, by decide +kernel⟩, by unfold NotAtEnd; decide +kernel⟩

/-- The hypotheses of C48 hold of a schedule with a repeated white interval and a black interval; the answer is: allowed from 5 to 9. -/
example : exSchedule.getCoveringInterval exTime = .ok (true, ⟨exDay + 2 * 86400000 + 5 * 3600000, exDay + 2 * 86400000 + 9 * 3600000, true⟩) := by decide +kernel

/-- The hypotheses of C49 hold of two schedules, one of which allows the time slot. -/
example : (∀ g ∈ [(⟨exSchedule, [(1, 10), (2, 20)]⟩ : GroupSchedule Nat Nat), ⟨{}, [(3, 30)]⟩], Askable (g.schedule.white ++ g.schedule.black) exTime) ∧
    GroupManager.calculateInterval [⟨exSchedule, [(1, 10), (2, 20)]⟩, ⟨{}, [(3, 30)]⟩] exTime =
      .ok (⟨exDay + 2 * 86400000 + 5 * 3600000, exDay + 2 * 86400000 + 9 * 3600000, true⟩, [(1, 10), (2, 20)]) := by
  constructor
  · intro g hg
    simp only [List.mem_cons, List.not_mem_nil, or_false] at hg
    rcases hg with rfl | rfl
    · exact exSchedule_askable
    · exact ⟨exSchedule_askable.1, exSchedule_askable.2.1, fun r hr => by cases hr⟩
  · decide +kernel

/-- C48, the excluded case of the end of an interval: at 10 o'clock, when the interval has ended, the answer is that access is allowed, with an interval
that does not have the time. -/
theorem C48_at_end : ∃ (s : Schedule) (t : ℚ) (i : Interval), (∀ r ∈ s.white ++ s.black, Usable r) ∧ NotLast t ∧ InCalendar (midnight t) ∧
    s.getCoveringInterval t = .ok (true, i) ∧ ¬ Allowed s t ∧ ¬ Mem t i := by
  refine ⟨Schedule.addWhite {} exWhite, 1440460800000 + 10 * 3600000, ⟨exDay + 5 * 3600000, exDay + 10 * 3600000, true⟩, ?_, by unfold NotLast; decide +kernel,
    ⟨2015, 8, 25, by decide +kernel⟩, by decide +kernel, ?_, by decide +kernel⟩
  · intro r hr
    have e : (Schedule.addWhite {} exWhite).white ++ (Schedule.addWhite {} exWhite).black = [exWhite] := by decide +kernel
    rw [e, List.mem_singleton] at hr
    subst hr
    exact ⟨⟨⟨16672, by decide⟩, by decide⟩, by decide, 2015, 8, 25, by decide +kernel⟩
  · rintro ⟨⟨r, hr, _, _, h⟩, _⟩
    have e : (Schedule.addWhite {} exWhite).white = [exWhite] := by decide +kernel
    rw [e, List.mem_singleton] at hr
    subst hr
    revert h
    decide +kernel

/-- C48, the same with an interval that begins at 10 o'clock: there is no answer, although access is allowed. -/
theorem C48_adjacent : ∃ (s : Schedule) (t : ℚ), NotLast t ∧ Allowed s t ∧ s.getCoveringInterval t = .error .runtime := by
  refine ⟨Schedule.addWhite (Schedule.addWhite {} ⟨exDay, exDay, 5, 10, 0, 0⟩) ⟨exDay, exDay, 10, 12, 0, 0⟩, 1440460800000 + 10 * 3600000,
    by unfold NotLast; decide +kernel, ⟨⟨⟨exDay, exDay, 10, 12, 0, 0⟩, by decide +kernel, ⟨by decide +kernel, by decide +kernel, trivial⟩,
      by decide +kernel, by decide +kernel⟩, ?_⟩, by decide +kernel⟩
  rintro ⟨r, hr, _⟩
  cases hr

/-- C48, the excluded case of the last half millisecond: the time is taken to be of the next day, so that access is denied, although it is allowed. -/
theorem C48_last_half : ∃ (s : Schedule) (t : ℚ) (i : Interval), Allowed s t ∧ s.getCoveringInterval t = .ok (false, i) ∧ ¬ Mem t i := by
  refine ⟨Schedule.addWhite {} ⟨exDay, exDay, 0, 24, 0, 0⟩, 1440460800000 + 86400000 - 1 / 4, ⟨exDay + 86400000, exDay + 2 * 86400000, true⟩,
    ⟨⟨⟨exDay, exDay, 0, 24, 0, 0⟩, by decide +kernel, ⟨by decide +kernel, by decide +kernel, trivial⟩, by decide +kernel, by decide +kernel⟩, ?_⟩,
    by decide +kernel, by decide +kernel⟩
  rintro ⟨r, hr, _⟩
  cases hr

/-- C48, the excluded case of `nRepeats` 0, which the constructor accepts: there is no answer. -/
theorem C48_zero_repeats : ∃ (r : RepetitiveInterval) (t : ℚ), RepetitiveInterval.make exDay (exDay + 86400000) 5 10 none (some 1) = .ok r ∧ NotLast t ∧
    (Schedule.addWhite {} r).getCoveringInterval t = .error .arithmetic :=
  ⟨⟨exDay, exDay + 86400000, 5, 10, 0, 1⟩, 1440460800000, by decide +kernel, by unfold NotLast; decide +kernel, by decide +kernel⟩

end Encrypt
end PyNDN
