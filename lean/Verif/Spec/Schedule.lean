import Verif.Model.Schedule
/-
What a schedule means: at which times it allows access.
-/
namespace PyNDN
namespace Encrypt

/-- The time is in the interval. -/
def Mem (t : ℚ) (i : Interval) : Prop := i.startTime ≤ t ∧ t < i.endTime

instance (t : ℚ) (i : Interval) : Decidable (Mem t i) := inferInstanceAs (Decidable (_ ∧ _))

/-- The midnight (UTC) at or before a time, in milliseconds since 1970. -/
def midnight (t : ℚ) : Int := ⌊t / 86400000⌋ * 86400000

/-- The day that begins at this midnight has this date. -/
def IsDate (day : Int) (y m d : Nat) : Prop :=
  1 ≤ y ∧ y ≤ 9999 ∧ 1 ≤ m ∧ m ≤ 12 ∧ 1 ≤ d ∧ d ≤ daysInMonth y m ∧ day = 1000 * secondsOfDatetime ⟨y, m, d, 0, 0, 0⟩

instance (day : Int) (y m d : Nat) : Decidable (IsDate day y m d) := by unfold IsDate; infer_instance

/-- There is an interval on the day: it is in the range of dates, and it is the start date (NONE), or a multiple of nRepeats days, months or years after
it (in which case it has the same day of the month, and the same month). -/
def Occurs (r : RepetitiveInterval) (day : Int) : Prop :=
  r.startDate ≤ day ∧ day ≤ r.endDate ∧
  match r.repeatUnit with
  | 0 => True
  | 1 => ∃ k : Int, day = r.startDate + k * r.nRepeats * 86400000
  | 2 => ∃ y m y' m' d, IsDate r.startDate y m d ∧ IsDate day y' m' d ∧ ∃ k : Int, (12 * y' + m' : Int) = 12 * y + m + k * r.nRepeats
  | 3 => ∃ y y' m d, IsDate r.startDate y m d ∧ IsDate day y' m d ∧ ∃ k : Int, (y' : Int) = y + k * r.nRepeats
  | _ => False

/-- The time is in one of the repeated intervals: there is one on the day, and the time is between the hours. -/
def InRepeated (r : RepetitiveInterval) (t : ℚ) : Prop :=
  Occurs r (midnight t) ∧ (midnight t + r.startHour * 3600000 : ℚ) ≤ t ∧ t < midnight t + r.endHour * 3600000

/-- The schedule allows access: the time is in a white interval and in no black interval. -/
def Allowed (s : Schedule) (t : ℚ) : Prop := (∃ r ∈ s.white, InRepeated r t) ∧ ¬ ∃ r ∈ s.black, InRepeated r t

/-- What the constructor of `RepetitiveInterval` ensures. -/
def Proper (r : RepetitiveInterval) : Prop :=
  (∃ k : Int, r.startDate = k * 86400000) ∧ 0 ≤ r.startHour ∧ r.startHour < r.endHour ∧ r.endHour ≤ 24

/-- If it repeats, then the number of units is not 0. -/
def RepeatsOk (r : RepetitiveInterval) : Prop := r.repeatUnit ≠ 0 → r.nRepeats ≠ 0

instance (r : RepetitiveInterval) : Decidable (RepeatsOk r) := by unfold RepeatsOk; infer_instance

/-- The day is in the years 1 to 9999 (which Python's datetime can represent). -/
def InCalendar (day : Int) : Prop := ∃ y m d, IsDate day y m d

end Encrypt
end PyNDN
