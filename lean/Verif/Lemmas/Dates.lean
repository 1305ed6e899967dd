import Verif.Lemmas.Iso
/-
Helper lemmas: dates and seconds correspond in the years 1 to 9999.
-/
namespace PyNDN

/-- A date of the calendar. -/
def ValidDate (y m d : Nat) : Prop := 1 ≤ y ∧ y ≤ 9999 ∧ 1 ≤ m ∧ m ≤ 12 ∧ 1 ≤ d ∧ d ≤ daysInMonth y m

theorem daysBeforeMonth_mono (y : Nat) {a b : Nat} (h0 : 1 ≤ a) (h : a ≤ b) : daysBeforeMonth y a ≤ daysBeforeMonth y b := by
  induction h with
  | refl => exact Nat.le_refl _
  | @step m hm ih =>
    refine Nat.le_trans ih ?_
    have h1 : 1 ≤ m := Nat.le_trans h0 hm
    rw [Nat.succ_eq_add_one, daysBeforeMonth_succ y m h1]; omega

theorem date_lt {y m d : Nat} (h : ValidDate y m d) : daysBeforeYear y + daysBeforeMonth y m + (d - 1) < daysBeforeYear (y + 1) := by
  obtain ⟨h1, h2, h3, h4, h5, h6⟩ := h
  have a := daysBeforeMonth_mono y (a := m + 1) (b := 13) (by omega) (by omega)
  rw [daysBeforeMonth_succ y m h3, daysBeforeMonth_year] at a
  rw [daysBeforeYear_succ y h1]
  omega

theorem date_inj {y m d y' m' d' : Nat} (h : ValidDate y m d) (h' : ValidDate y' m' d')
    (he : daysBeforeYear y + daysBeforeMonth y m + (d - 1) = daysBeforeYear y' + daysBeforeMonth y' m' + (d' - 1)) : y = y' ∧ m = m' ∧ d = d' := by
  have l := date_lt h
  have l' := date_lt h'
  have hy : y = y' := by
    rcases Nat.lt_trichotomy y y' with hlt | heq | hgt
    · have := daysBeforeYear_mono (a := y + 1) (b := y') (by omega)
      omega
    · exact heq
    · have := daysBeforeYear_mono (a := y' + 1) (b := y) (by omega)
      omega
  subst hy
  obtain ⟨h1, h2, h3, h4, h5, h6⟩ := h
  obtain ⟨_, _, h3', h4', h5', h6'⟩ := h'
  have hm : m = m' := by
    rcases Nat.lt_trichotomy m m' with hlt | heq | hgt
    · have := daysBeforeMonth_mono y (a := m + 1) (b := m') (by omega) (by omega)
      rw [daysBeforeMonth_succ y m h3] at this
      omega
    · exact heq
    · have := daysBeforeMonth_mono y (a := m' + 1) (b := m) (by omega) (by omega)
      rw [daysBeforeMonth_succ y m' h3'] at this
      omega
  subst hm
  exact ⟨rfl, rfl, by omega⟩

/-- What `datetimeFromSeconds` gives in the years 1 to 9999. -/
theorem datetimeFromSeconds_all (s : Int) (h1 : -62135596800 ≤ s) (h2 : s < 253402300800) :
    ∃ t, datetimeFromSeconds s = .ok t ∧ secondsOfDatetime t = s ∧ ValidDate t.year t.month t.day ∧ t.hour ≤ 23 ∧ t.minute ≤ 59 ∧ t.second ≤ 59 := by
  unfold datetimeFromSeconds
  simp only
  generalize ht : s + ((epochDays * 86400 : Nat) : Int) = t
  have ht1 : 0 ≤ t := by rw [← ht]; unfold epochDays; omega
  have ht2 : t < ((3652059 * 86400 : Nat) : Int) := by rw [← ht]; unfold epochDays; omega
  rw [if_neg (by omega)]
  obtain ⟨T, hT⟩ : ∃ T : Nat, t = T := ⟨t.toNat, by omega⟩
  subst hT
  simp only [Int.toNat_natCast]
  generalize hn : T / 86400 = n
  have hn2 : n < 3652059 := by omega
  obtain ⟨y1, y2, y3⟩ := findYear_ok n
  generalize hy : findYear n (n / 365 + 1) = y at y1 y2 y3
  have hyu : y ≤ 9999 := by
    rcases Nat.lt_or_ge 9999 y with h | h
    · have := daysBeforeYear_mono (a := 10000) (b := y) (by omega)
      have : daysBeforeYear 10000 = 3652059 := by decide
      omega
    · exact h
  have hm := findMonth_spec y 11 (n - daysBeforeYear y) 1 (by omega) (by
    rw [show 1 + 11 + 1 = 13 by omega, daysBeforeMonth_year]
    have := daysBeforeYear_succ y y1
    simp only [daysBeforeMonth]; omega)
  generalize findMonth y (n - daysBeforeYear y) 1 11 = p at hm
  obtain ⟨m, d⟩ := p
  obtain ⟨m1, m2, m3, m4, m5⟩ := hm
  dsimp only at *
  rw [if_neg (by omega)]
  refine ⟨_, rfl, ?_, ⟨y1, hyu, m1, by omega, m3, m4⟩, by dsimp only; omega, by dsimp only; omega, by dsimp only; omega⟩
  unfold secondsOfDatetime
  dsimp only
  have e1 : daysBeforeMonth y 1 = 0 := rfl
  have e2 : daysBeforeYear y + daysBeforeMonth y m + (d - 1) = n := by omega
  rw [e2]
  have e3 : n * 86400 + T % 86400 / 3600 * 3600 + T % 86400 % 3600 / 60 * 60 + T % 86400 % 60 = T := by
    omega
  rw [e3]
  omega

theorem secondsOfDate_range {y m d : Nat} (h : ValidDate y m d) :
    -62135596800 ≤ secondsOfDatetime ⟨y, m, d, 0, 0, 0⟩ ∧ secondsOfDatetime ⟨y, m, d, 0, 0, 0⟩ < 253402300800 ∧
    secondsOfDatetime ⟨y, m, d, 0, 0, 0⟩ % 86400 = 0 := by
  have l := date_lt h
  have := daysBeforeYear_mono (a := y + 1) (b := 10000) (by have := h.2.1; omega)
  have : daysBeforeYear 10000 = 3652059 := by decide
  unfold secondsOfDatetime epochDays
  dsimp only
  omega

/-- The date of a midnight. -/
theorem datetimeFromSeconds_date {y m d : Nat} (h : ValidDate y m d) :
    datetimeFromSeconds (secondsOfDatetime ⟨y, m, d, 0, 0, 0⟩) = .ok ⟨y, m, d, 0, 0, 0⟩ := by
  obtain ⟨r1, r2, r3⟩ := secondsOfDate_range h
  obtain ⟨t, h1, h2, h3, h4, h5, h6⟩ := datetimeFromSeconds_all _ r1 r2
  rw [h1]
  obtain ⟨y', m', d', hh, mm, ss⟩ := t
  dsimp only at h3 h4 h5 h6
  unfold secondsOfDatetime at h2
  dsimp only at h2
  have e1 : hh * 3600 + mm * 60 + ss = 0 := by omega
  have e2 : daysBeforeYear y' + daysBeforeMonth y' m' + (d' - 1) = daysBeforeYear y + daysBeforeMonth y m + (d - 1) := by omega
  obtain ⟨rfl, rfl, rfl⟩ := date_inj h3 h e2
  have : hh = 0 ∧ mm = 0 ∧ ss = 0 := by omega
  obtain ⟨rfl, rfl, rfl⟩ := this
  rfl

end PyNDN
