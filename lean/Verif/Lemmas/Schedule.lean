import Mathlib.Tactic.Linarith
import Mathlib.Algebra.Order.Floor.Ring
import Verif.Spec.Schedule
import Verif.Lemmas.Dates
/-
Helper lemmas: the dates and the intervals of a schedule.
-/
namespace PyNDN
namespace Encrypt

theorem pyRound_bounds (t : ℚ) : ⌊t⌋ ≤ pyRound t ∧ (pyRound t : ℚ) ≤ t + 1 / 2 := by
  have h1 := Int.floor_le t
  have h2 := Int.lt_floor_add_one t
  unfold pyRound
  dsimp only
  split
  · exact ⟨le_refl _, by linarith⟩
  · split
    · exact ⟨by omega, by push_cast; linarith⟩
    · split
      · exact ⟨le_refl _, by linarith⟩
      · exact ⟨by omega, by push_cast; linarith⟩

theorem midnight_le (t : ℚ) : (midnight t : ℚ) ≤ t := by
  have h := Int.floor_le (t / 86400000)
  unfold midnight
  push_cast
  rw [le_div_iff₀ (by norm_num)] at h
  exact h

theorem lt_midnight (t : ℚ) : t < midnight t + 86400000 := by
  have h := Int.lt_floor_add_one (t / 86400000)
  unfold midnight
  push_cast
  rw [div_lt_iff₀ (by norm_num)] at h
  linarith

theorem midnight_mult (t : ℚ) : ∃ k : Int, midnight t = k * 86400000 := ⟨_, rfl⟩

/-- The midnight of any time of the day. -/
theorem midnight_eq {t : ℚ} {k : Int} (h1 : ((k * 86400000 : Int) : ℚ) ≤ t) (h2 : t < ((k * 86400000 : Int) : ℚ) + 86400000) : midnight t = k * 86400000 := by
  have : ⌊t / 86400000⌋ = k := by
    rw [Int.floor_eq_iff]
    push_cast at h1 h2
    constructor
    · rw [le_div_iff₀ (by norm_num)]; exact h1
    · rw [div_lt_iff₀ (by norm_num)]; linarith
  unfold midnight
  rw [this]

/-- The time is not in the last half millisecond of its day. -/
def NotLast (t : ℚ) : Prop := t < midnight t + 86400000 - 1 / 2

theorem toDateOnly_eq {t : ℚ} (h : NotLast t) : toDateOnly t = midnight t := by
  obtain ⟨b1, b2⟩ := pyRound_bounds t
  obtain ⟨k, hk⟩ := midnight_mult t
  unfold NotLast at h
  have hf : midnight t ≤ ⌊t⌋ := Int.le_floor.mpr (midnight_le t)
  have hr : pyRound t < midnight t + 86400000 := by
    have : (pyRound t : ℚ) < ((midnight t + 86400000 : Int) : ℚ) := by push_cast; linarith
    exact_mod_cast this
  unfold toDateOnly msDay
  dsimp only
  omega

/-! ### Days -/

theorem isDate_secs {day : Int} {y m d : Nat} (h : IsDate day y m d) : datetimeFromSeconds (day / 1000) = .ok ⟨y, m, d, 0, 0, 0⟩ := by
  obtain ⟨h1, h2, h3, h4, h5, h6, h7⟩ := h
  have : day / 1000 = secondsOfDatetime ⟨y, m, d, 0, 0, 0⟩ := by omega
  rw [this]
  exact datetimeFromSeconds_date ⟨h1, h2, h3, h4, h5, h6⟩

theorem isDate_unique {day : Int} {y m d y' m' d' : Nat} (h : IsDate day y m d) (h' : IsDate day y' m' d') : y = y' ∧ m = m' ∧ d = d' := by
  have a := isDate_secs h
  rw [isDate_secs h'] at a
  injection a with a
  injection a with a1 a2 a3
  exact ⟨a1.symm, a2.symm, a3.symm⟩

theorem divides_iff {a n : Int} (hn : n ≠ 0) : ∃ b, RepetitiveInterval.divides a n = .ok b ∧ (b = true ↔ ∃ k : Int, a = k * n) := by
  refine ⟨a % n == 0, by unfold RepetitiveInterval.divides; rw [if_neg hn], ?_⟩
  rw [beq_iff_eq]
  constructor
  · intro h
    exact ⟨a / n, by have := Int.emod_add_mul_ediv a n; rw [h] at this; rw [Int.mul_comm]; omega⟩
  · rintro ⟨k, rfl⟩
    exact Int.mul_emod_left k n

/-- The interval can be asked about: the constructor's conditions, a number of repeats, and a date that Python can represent. -/
def Usable (r : RepetitiveInterval) : Prop := Proper r ∧ RepeatsOk r ∧ InCalendar r.startDate

theorem hasIntervalOnDate_eq {r : RepetitiveInterval} {t : ℚ} (hr : Usable r) (ht : NotLast t) (hc : InCalendar (midnight t)) :
    ∃ b, r.hasIntervalOnDate t = .ok b ∧ (b = true ↔ Occurs r (midnight t)) := by
  obtain ⟨⟨⟨k0, hk0⟩, _, _, _⟩, hrep, ⟨ys, ms, ds, hs⟩⟩ := hr
  obtain ⟨yt, mt, dt, hd⟩ := hc
  obtain ⟨k1, hk1⟩ := midnight_mult t
  unfold RepetitiveInterval.hasIntervalOnDate Occurs
  rw [toDateOnly_eq ht]
  dsimp only
  by_cases hout : midnight t < r.startDate ∨ midnight t > r.endDate
  · rw [if_pos hout]
    refine ⟨false, rfl, ?_⟩
    constructor
    · intro h; cases h
    · rintro ⟨h1, h2, _⟩
      omega
  rw [if_neg hout]
  have hin : r.startDate ≤ midnight t ∧ midnight t ≤ r.endDate := by omega
  by_cases h0 : r.repeatUnit = 0
  · rw [if_pos h0, h0]
    exact ⟨true, rfl, by simp [hin]⟩
  rw [if_neg h0]
  have hn := hrep h0
  by_cases h1 : r.repeatUnit = 1
  · rw [if_pos h1, h1]
    obtain ⟨b, hb, hiff⟩ := divides_iff (a := (midnight t - r.startDate) / msDay) hn
    refine ⟨b, hb, ?_⟩
    rw [hiff]
    simp only [hin, true_and]
    have e : (midnight t - r.startDate) / msDay = k1 - k0 := by
      unfold msDay; omega
    rw [e, hk1, hk0]
    constructor
    · rintro ⟨k, hk⟩
      exact ⟨k, by rw [← hk]; ring⟩
    · rintro ⟨k, hk⟩
      refine ⟨k, ?_⟩
      have : (k1 - k0 - k * r.nRepeats) * 86400000 = 0 := by linarith
      omega
  rw [if_neg h1, isDate_secs hd, isDate_secs hs]
  simp only [bind, Except.bind, pure, Except.pure]
  by_cases h2 : r.repeatUnit = 2
  · rw [h2]
    simp only [true_and, hin]
    by_cases hday : dt = ds
    · rw [if_pos hday]
      obtain ⟨b, hb, hiff⟩ := divides_iff (a := 12 * ((yt : Int) - ys) + mt - ms) hn
      refine ⟨b, hb, ?_⟩
      rw [hiff]
      constructor
      · rintro ⟨k, hk⟩
        refine ⟨ys, ms, yt, mt, ds, hs, hday ▸ hd, k, by omega⟩
      · rintro ⟨y, m, y', m', d, a, b, k, hk⟩
        obtain ⟨rfl, rfl, rfl⟩ := isDate_unique hs a
        obtain ⟨rfl, rfl, _⟩ := isDate_unique hd b
        exact ⟨k, by omega⟩
    · rw [if_neg hday]
      simp only [show ¬ (2 = 3) by decide, false_and, if_false]
      refine ⟨false, rfl, ⟨(fun h => by cases h), ?_⟩⟩
      rintro ⟨y, m, y', m', d, a, b, k, hk⟩
      obtain ⟨rfl, rfl, rfl⟩ := isDate_unique hs a
      obtain ⟨rfl, rfl, h⟩ := isDate_unique hd b
      exact absurd h hday
  rw [if_neg (by rintro ⟨h, _⟩; exact h2 h)]
  by_cases h3 : r.repeatUnit = 3
  · rw [h3]
    simp only [true_and, hin]
    by_cases hday : dt = ds ∧ mt = ms
    · rw [if_pos hday]
      obtain ⟨b, hb, hiff⟩ := divides_iff (a := (yt : Int) - ys) hn
      refine ⟨b, hb, ?_⟩
      rw [hiff]
      obtain ⟨rfl, rfl⟩ := hday
      constructor
      · rintro ⟨k, hk⟩
        exact ⟨ys, yt, mt, dt, hs, hd, k, by omega⟩
      · rintro ⟨y, y', m, d, a, b, k, hk⟩
        obtain ⟨rfl, _, _⟩ := isDate_unique hs a
        obtain ⟨rfl, _, _⟩ := isDate_unique hd b
        exact ⟨k, by omega⟩
    · rw [if_neg hday]
      refine ⟨false, rfl, ⟨(fun h => by cases h), ?_⟩⟩
      rintro ⟨y, y', m, d, a, b, k, hk⟩
      obtain ⟨rfl, rfl, rfl⟩ := isDate_unique hs a
      obtain ⟨rfl, h, h'⟩ := isDate_unique hd b
      exact absurd ⟨h', h⟩ hday
  rw [if_neg (by rintro ⟨h, _⟩; exact h3 h)]
  refine ⟨false, rfl, ⟨(fun h => by cases h), ?_⟩⟩
  rintro ⟨_, _, h⟩
  revert h
  split <;> first | contradiction | exact False.elim

/-! ### One repetitive interval -/

/-- The time is not the end of the hours of the interval. -/
def NotAtEnd (r : RepetitiveInterval) (t : ℚ) : Prop := t ≠ midnight t + r.endHour * 3600000

theorem getInterval_spec {r : RepetitiveInterval} {t : ℚ} (hr : Usable r) (ht : NotLast t) (hc : InCalendar (midnight t)) (he : NotAtEnd r t) :
    ∃ p i, r.getInterval t = .ok (p, i) ∧ i.isValid = true ∧ (p = true ↔ InRepeated r t) ∧ Mem t i ∧
      ∀ t', Mem t' i → (InRepeated r t' ↔ InRepeated r t) := by
  obtain ⟨b, hb, hiff⟩ := hasIntervalOnDate_eq hr ht hc
  obtain ⟨⟨_, hs0, hs1, hs2⟩, _, _⟩ := hr
  obtain ⟨k1, hk1⟩ := midnight_mult t
  have m1 := midnight_le t
  have m2 := lt_midnight t
  have same : ∀ t' : ℚ, (midnight t : ℚ) ≤ t' → t' < midnight t + 86400000 → midnight t' = midnight t := by
    intro t' h1 h2
    rw [hk1] at h1 h2 ⊢
    exact midnight_eq h1 h2
  have q0 : (0 : ℚ) ≤ r.startHour := by exact_mod_cast hs0
  have q1 : (r.startHour : ℚ) < r.endHour := by exact_mod_cast hs1
  have q2 : (r.endHour : ℚ) ≤ 24 := by exact_mod_cast hs2
  unfold NotAtEnd at he
  unfold RepetitiveInterval.getInterval
  rw [toDateOnly_eq ht, hb]
  simp only [bind, Except.bind, pure, Except.pure, msHour, msDay, Interval.ofTimes]
  push_cast
  cases b with
  | false =>
    have hno : ¬ Occurs r (midnight t) := fun h => by have := hiff.mpr h; cases this
    simp only [Bool.not_false, if_true]
    rw [if_neg (by rw [not_not]; linarith)]
    refine ⟨_, _, rfl, rfl, ?_, ⟨by linarith, by dsimp only; linarith⟩, ?_⟩
    · exact ⟨(fun h => by cases h), fun h => absurd h.1 hno⟩
    · rintro t' ⟨h1, h2⟩
      dsimp only at h1 h2
      have hs := same t' h1 (by linarith)
      exact ⟨fun h => absurd (hs ▸ h.1) hno, fun h => absurd h.1 hno⟩
  | true =>
    have hoc : Occurs r (midnight t) := hiff.mp rfl
    simp only [Bool.not_true, Bool.false_eq_true, if_false]
    split
    · next hlt =>
      rw [if_neg (by rw [not_not]; linarith)]
      have hno : ¬ InRepeated r t := by rintro ⟨_, h, _⟩; linarith
      refine ⟨_, _, rfl, rfl, ?_, ⟨by linarith, by dsimp only; linarith⟩, ?_⟩
      · exact ⟨(fun h => by cases h), fun h => absurd h hno⟩
      · rintro t' ⟨h1, h2⟩
        dsimp only at h1 h2
        have hs := same t' h1 (by linarith)
        refine ⟨fun h => ?_, fun h => absurd h hno⟩
        have := h.2.1
        rw [hs] at this
        exfalso
        linarith
    · next hlt =>
      split
      · next hgt =>
        rw [if_neg (by rw [not_not]; linarith)]
        have hno : ¬ InRepeated r t := by rintro ⟨_, _, h⟩; linarith
        refine ⟨_, _, rfl, rfl, ?_, ⟨by dsimp only; linarith, by dsimp only; linarith⟩, ?_⟩
        · exact ⟨(fun h => by cases h), fun h => absurd h hno⟩
        · rintro t' ⟨h1, h2⟩
          dsimp only at h1 h2
          have hs := same t' (by linarith) (by linarith)
          refine ⟨fun h => ?_, fun h => absurd h hno⟩
          have := h.2.2
          rw [hs] at this
          exfalso
          linarith
      · next hgt =>
        rw [if_neg (by rw [not_not]; linarith)]
        have hle : t < midnight t + r.endHour * 3600000 := by
          refine lt_of_le_of_ne (by linarith) he
        have hyes : InRepeated r t := ⟨hoc, by linarith, hle⟩
        refine ⟨_, _, rfl, rfl, ?_, ⟨by dsimp only; linarith, by dsimp only; linarith⟩, ?_⟩
        · exact ⟨fun _ => hyes, fun _ => rfl⟩
        · rintro t' ⟨h1, h2⟩
          dsimp only at h1 h2
          have hs := same t' (by linarith) (by linarith)
          refine ⟨fun _ => hyes, fun _ => ?_⟩
          unfold InRepeated
          rw [hs]
          exact ⟨hoc, by linarith, by linarith⟩

end Encrypt
end PyNDN
