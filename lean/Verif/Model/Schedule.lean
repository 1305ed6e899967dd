import Mathlib.Data.Rat.Floor
import Verif.Model.Text
/-
Model of `Interval` (encrypt/interval.py), `RepetitiveInterval` (encrypt/repetitive_interval.py), `Schedule` (encrypt/schedule.py) and the part of
`GroupManager` that decides which members get a group key and for which interval (encrypt/group_manager.py:210-266).

A time is a rational number of milliseconds since 1970 (Python uses a float).  Simplification: the arithmetic is exact.
-/
namespace PyNDN
namespace Encrypt

/-! ### Interval -/

/-- `Interval` (interval.py:44-65). -/
structure Interval where
  startTime : ℚ
  endTime : ℚ
  isValid : Bool
  deriving DecidableEq

/-- `-sys.float_info.max`. -/
def minTime : ℚ := -(2 ^ 1024 - 2 ^ 971)

namespace Interval

/-- `Interval(startTime, endTime)` (interval.py:50-59). -/
def ofTimes (startTime endTime : ℚ) : Except Err Interval :=
  if ¬ startTime < endTime then .error .runtime else .ok ⟨startTime, endTime, true⟩

/-- `Interval(isValid)` (interval.py:60-65). -/
def empty (isValid : Bool) : Interval := ⟨minTime, minTime, isValid⟩

/-- `isEmpty` (interval.py:207-218). -/
def isEmpty (i : Interval) : Except Err Bool :=
  if !i.isValid then .error .runtime else .ok (i.startTime == i.endTime)

/-- `covers` (interval.py:77-93). -/
def covers (i : Interval) (timePoint : ℚ) : Except Err Bool := do
  if !i.isValid then .error .runtime
  else if ← i.isEmpty then return false
  else return decide (i.startTime ≤ timePoint) && decide (timePoint < i.endTime)

/-- `intersectWith` (interval.py:95-129); the result is the new value of `self`. -/
def intersectWith (i j : Interval) : Except Err Interval := do
  if !i.isValid then .error .runtime
  else if !j.isValid then .error .runtime
  else if (← i.isEmpty) || (← j.isEmpty) then return { i with startTime := i.endTime }
  else if i.startTime ≥ j.endTime ∨ i.endTime ≤ j.startTime then return { i with startTime := i.endTime }
  else
    let i := if i.startTime ≤ j.startTime then { i with startTime := j.startTime } else i
    return if i.endTime > j.endTime then { i with endTime := j.endTime } else i

/-- `unionWith` (interval.py:131-172). -/
def unionWith (i j : Interval) : Except Err Interval := do
  if !i.isValid then .error .runtime
  else if !j.isValid then .error .runtime
  else if ← i.isEmpty then return { i with startTime := j.startTime, endTime := j.endTime }
  else if ← j.isEmpty then return i
  else if i.startTime ≥ j.endTime ∨ i.endTime ≤ j.startTime then .error .runtime
  else
    let i := if i.startTime > j.startTime then { i with startTime := j.startTime } else i
    return if i.endTime < j.endTime then { i with endTime := j.endTime } else i

end Interval

/-! ### RepetitiveInterval -/

/-- Python's `round`: to the nearest, ties to even. -/
def pyRound (x : ℚ) : Int :=
  let f := ⌊x⌋
  if x - f < 1 / 2 then f else if x - f > 1 / 2 then f + 1 else if f % 2 = 0 then f else f + 1

/-- `MILLISECONDS_IN_HOUR`, `MILLISECONDS_IN_DAY` (repetitive_interval.py:309-310). -/
def msHour : Int := 3600 * 1000
def msDay : Int := 24 * 3600 * 1000

/-- `_toDateOnlyMilliseconds` (repetitive_interval.py:294-307). -/
def toDateOnly (timePoint : ℚ) : Int :=
  let result := pyRound timePoint
  result - result % msDay

/-- `RepetitiveInterval` (repetitive_interval.py:52-101).  `repeatUnit`: 0 is NONE, 1 is DAY, 2 is MONTH, 3 is YEAR. -/
structure RepetitiveInterval where
  startDate : Int
  endDate : Int
  startHour : Int
  endHour : Int
  nRepeats : Int
  repeatUnit : Nat
  deriving DecidableEq

namespace RepetitiveInterval

/-- The constructor with dates (repetitive_interval.py:64-93). -/
def make (startDate endDate : ℚ) (startHour endHour : Int) (nRepeats : Option Int) (repeatUnit : Option Nat) : Except Err RepetitiveInterval :=
  let r : RepetitiveInterval := ⟨toDateOnly startDate, toDateOnly endDate, startHour, endHour, nRepeats.getD 0, repeatUnit.getD 0⟩
  if ¬ r.startHour < r.endHour then .error .runtime
  else if ¬ r.startDate ≤ r.endDate then .error .runtime
  else if ¬ r.startHour ≥ 0 then .error .runtime
  else if ¬ (r.endHour ≥ 1 ∧ r.endHour ≤ 24) then .error .runtime
  else if r.repeatUnit = 0 ∧ ¬ r.startDate = r.endDate then .error .runtime
  else .ok r

/-- Python's `a % n == 0`. -/
def divides (a n : Int) : Except Err Bool := if n = 0 then .error .arithmetic else .ok (a % n == 0)

/-- `_hasIntervalOnDate` (repetitive_interval.py:251-292).  The dates are whole days, so the divisions are exact. -/
def hasIntervalOnDate (r : RepetitiveInterval) (timePoint : ℚ) : Except Err Bool := do
  let date := toDateOnly timePoint
  if date < r.startDate ∨ date > r.endDate then return false
  else if r.repeatUnit = 0 then return true
  else if r.repeatUnit = 1 then divides ((date - r.startDate) / msDay) r.nRepeats
  else
    let d ← datetimeFromSeconds (date / 1000)
    let s ← datetimeFromSeconds (r.startDate / 1000)
    if r.repeatUnit = 2 ∧ d.day = s.day then
      divides (12 * ((d.year : Int) - s.year) + d.month - s.month) r.nRepeats
    else if r.repeatUnit = 3 ∧ d.day = s.day ∧ d.month = s.month then
      divides ((d.year : Int) - s.year) r.nRepeats
    else return false

/-- `getInterval` (repetitive_interval.py:114-154). -/
def getInterval (r : RepetitiveInterval) (timePoint : ℚ) : Except Err (Bool × Interval) := do
  let date := toDateOnly timePoint
  if !(← r.hasIntervalOnDate timePoint) then
    return (false, ← Interval.ofTimes date ((date + 24 * msHour : Int)))
  else
    let startTime : ℚ := ((date + r.startHour * msHour : Int))
    let endTime : ℚ := ((date + r.endHour * msHour : Int))
    if timePoint < startTime then return (false, ← Interval.ofTimes date startTime)
    else if timePoint > endTime then return (false, ← Interval.ofTimes endTime ((date + msDay : Int)))
    else return (true, ← Interval.ofTimes startTime endTime)

/-- One field of `compare`. -/
def cmp (a b : Int) (rest : Int) : Int := if a < b then -1 else if a > b then 1 else rest

/-- `compare` (repetitive_interval.py:156-195). -/
def compare (r s : RepetitiveInterval) : Int :=
  cmp r.startDate s.startDate <| cmp r.endDate s.endDate <| cmp r.startHour s.startHour <| cmp r.endHour s.endHour <|
    cmp r.nRepeats s.nRepeats <| cmp r.repeatUnit s.repeatUnit 0

end RepetitiveInterval

/-! ### Schedule -/

/-- `Schedule` (schedule.py:43-54). -/
structure Schedule where
  white : List RepetitiveInterval := []
  black : List RepetitiveInterval := []
  deriving DecidableEq

namespace Schedule

/-- `_sortedSetAdd` (schedule.py:213-231). -/
def sortedSetAdd (element : RepetitiveInterval) : List RepetitiveInterval → List RepetitiveInterval
  | [] => [element]
  | x :: l =>
    let c := x.compare element
    if c = 0 then x :: l
    else if ¬ c < 0 then element :: x :: l
    else x :: sortedSetAdd element l

/-- `addWhiteInterval` (schedule.py:56-68). -/
def addWhite (s : Schedule) (r : RepetitiveInterval) : Schedule := { s with white := sortedSetAdd r s.white }

/-- `addBlackInterval` (schedule.py:70-82). -/
def addBlack (s : Schedule) (r : RepetitiveInterval) : Schedule := { s with black := sortedSetAdd r s.black }

/-- `_calculateIntervalResult` (schedule.py:290-314). -/
def calculate (timeStamp : ℚ) : List RepetitiveInterval → Interval → Interval → Except Err (Interval × Interval)
  | [], pos, neg => .ok (pos, neg)
  | x :: l, pos, neg => do
    let (isPositive, temp) ← x.getInterval timeStamp
    if isPositive then calculate timeStamp l (← pos.unionWith temp) neg
    else if !neg.isValid then calculate timeStamp l pos temp
    else calculate timeStamp l pos (← neg.intersectWith temp)

/-- `getCoveringInterval` (schedule.py:89-144). -/
def getCoveringInterval (s : Schedule) (timeStamp : ℚ) : Except Err (Bool × Interval) := do
  let (blackPos, blackNeg) ← calculate timeStamp s.black (.empty true) (.empty false)
  if !(← blackPos.isEmpty) then return (false, blackPos)
  else
    let (whitePos, whiteNeg) ← calculate timeStamp s.white (.empty true) (.empty false)
    if (← whitePos.isEmpty) && !whiteNeg.isValid then
      let date := toDateOnly timeStamp
      return (false, ← Interval.ofTimes date ((date + msDay : Int)))
    else if !(← whitePos.isEmpty) then
      if blackNeg.isValid then return (true, ← whitePos.intersectWith blackNeg)
      else return (true, whitePos)
    else return (false, whiteNeg)

end Schedule

/-! ### GroupManager -/

/-- A schedule in the database with its members: the names of their keys, and the keys, of any types. -/
structure GroupSchedule (κ β : Type) where
  schedule : Schedule
  members : List (κ × β)

namespace GroupManager
variable {κ β : Type} [DecidableEq κ]

/-- `map[name] = key` for each member, in a dictionary given as a list. -/
def addAll (keys : List (κ × β)) (members : List (κ × β)) : List (κ × β) :=
  members.foldl (fun ks m => ks.filter (fun k => k.1 ≠ m.1) ++ [m]) keys

/-- The loop of `_calculateInterval` (group_manager.py:232-253). -/
def loop (timeSlot : ℚ) : List (GroupSchedule κ β) → Interval → Interval → List (κ × β) → Except Err (Interval × Interval × List (κ × β))
  | [], pos, neg, keys => .ok (pos, neg, keys)
  | g :: gs, pos, neg, keys => do
    let (isPositive, temp) ← g.schedule.getCoveringInterval timeSlot
    if isPositive then
      let pos := if !pos.isValid then temp else pos
      loop timeSlot gs (← pos.intersectWith temp) neg (addAll keys g.members)
    else
      let neg := if !neg.isValid then temp else neg
      loop timeSlot gs pos (← neg.intersectWith temp) keys

/-- `_calculateInterval` (group_manager.py:210-266): the interval and the keys of the members.  `gs` are the schedules
that the database lists (see Model/GroupManager for the database). -/
def calculateInterval (gs : List (GroupSchedule κ β)) (timeSlot : ℚ) : Except Err (Interval × List (κ × β)) := do
  let (pos, neg, keys) ← loop timeSlot gs (.empty false) (.empty false) []
  if !pos.isValid then return (.empty false, keys)
  else if neg.isValid then return (← pos.intersectWith neg, keys)
  else return (pos, keys)

end GroupManager
end Encrypt
end PyNDN
