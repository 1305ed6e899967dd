import Verif.Model.Basic
/-
Model of the text and date conversions that the wire format uses: `str(blob)` and the ISO timestamps
of a ValidityPeriod.  A Python `str` is modelled by the list of its code points or (for strings that
are only carried around) by its UTF-8 bytes.  The Python 3 behaviour is modelled.
-/
namespace PyNDN

/-- A UTF-8 continuation byte. -/
def isCont (b : UInt8) : Bool := 0x80 ≤ b.toNat && b.toNat < 0xc0

/-- `str(buffer, 'utf8')` (util/blob.py:283-296, Python 3): strict UTF-8, which refuses overlong
forms, surrogates and code points above 0x10ffff with UnicodeDecodeError (a ValueError). -/
def utf8Decode : Bytes → Except Err (List Nat)
  | [] => .ok []
  | b0 :: rest =>
    if b0.toNat < 0x80 then
      (utf8Decode rest).map (b0.toNat :: ·)
    else if b0.toNat < 0xc2 then .error .value
    else if b0.toNat < 0xe0 then
      match rest with
      | b1 :: rest =>
        if isCont b1 then
          (utf8Decode rest).map (((b0.toNat - 0xc0) * 64 + (b1.toNat - 0x80)) :: ·)
        else .error .value
      | _ => .error .value
    else if b0.toNat < 0xf0 then
      match rest with
      | b1 :: b2 :: rest =>
        let c := (b0.toNat - 0xe0) * 4096 + (b1.toNat - 0x80) * 64 + (b2.toNat - 0x80)
        if isCont b1 && isCont b2 && 0x800 ≤ c && !(0xd800 ≤ c && c < 0xe000) then
          (utf8Decode rest).map (c :: ·)
        else .error .value
      | _ => .error .value
    else if b0.toNat < 0xf5 then
      match rest with
      | b1 :: b2 :: b3 :: rest =>
        let c := (b0.toNat - 0xf0) * 262144 + (b1.toNat - 0x80) * 4096 + (b2.toNat - 0x80) * 64 +
          (b3.toNat - 0x80)
        if isCont b1 && isCont b2 && isCont b3 && 0x10000 ≤ c && c < 0x110000 then
          (utf8Decode rest).map (c :: ·)
        else .error .value
      | _ => .error .value
    else .error .value

/-- `str(blob)` for a string that is then only stored: the UTF-8 bytes themselves, or the
UnicodeDecodeError. -/
def strOfBlob (b : Bytes) : Except Err Bytes := (utf8Decode b).map fun _ => b

/-! ### Dates (the Python `datetime` standard library, proleptic Gregorian calendar) -/

def isLeap (y : Nat) : Bool := y % 4 == 0 && (y % 100 != 0 || y % 400 == 0)

def daysInMonth (y m : Nat) : Nat :=
  if m = 2 then (if isLeap y then 29 else 28)
  else if m = 4 ∨ m = 6 ∨ m = 9 ∨ m = 11 then 30 else 31

/-- Days from 0001-01-01 to `y`-01-01. -/
def daysBeforeYear (y : Nat) : Nat := (y - 1) * 365 + (y - 1) / 4 - (y - 1) / 100 + (y - 1) / 400

/-- Days from January 1st to the first of month `m` of year `y`. -/
def daysBeforeMonth (y : Nat) : Nat → Nat
  | 0 => 0
  | 1 => 0
  | m + 2 => daysBeforeMonth y (m + 1) + daysInMonth y (m + 1)

/-- Days from 0001-01-01 to 1970-01-01 (`_posixEpoch`, tlv_0_2_wire_format.py:1625). -/
def epochDays : Nat := 719162

/-- The largest year not above `y` that starts on or before day `n`. -/
def findYear (n : Nat) : Nat → Nat
  | 0 => 1
  | y + 1 => if daysBeforeYear (y + 1) ≤ n then y + 1 else findYear n y

/-- The month and the day of the month of the `r`-th day of year `y`, starting at month `m`. -/
def findMonth (y r m : Nat) : Nat → Nat × Nat
  | 0 => (m, r + 1)
  | fuel + 1 => if r < daysInMonth y m then (m, r + 1) else findMonth y (r - daysInMonth y m) (m + 1) fuel

/-- A broken down UTC time. -/
structure DateTime where
  year : Nat
  month : Nat
  day : Nat
  hour : Nat
  minute : Nat
  second : Nat
  deriving DecidableEq, Repr

/-- `Common.datetimeFromTimestamp` for a whole number of seconds since 1970
(util/common.py:73-87).  Python raises OverflowError outside the years 1-9999, which is modelled by
the error `value`. -/
def datetimeFromSeconds (s : Int) : Except Err DateTime :=
  let t := s + (epochDays * 86400 : Nat)
  if t < 0 then .error .value
  else
    let n := t.toNat / 86400
    let r := t.toNat % 86400
    let y := findYear n (n / 365 + 1)
    let (m, d) := findMonth y (n - daysBeforeYear y) 1 11
    if y > 9999 then .error .value
    else .ok ⟨y, m, d, r / 3600, r % 3600 / 60, r % 60⟩

/-- The `datetime(...)` constructor: refuses values that are out of range. -/
def mkDateTime (y mo d h mi s : Int) : Except Err DateTime :=
  if 1 ≤ y ∧ y ≤ 9999 ∧ 1 ≤ mo ∧ mo ≤ 12 ∧ 1 ≤ d ∧ d ≤ daysInMonth y.toNat mo.toNat ∧
     0 ≤ h ∧ h ≤ 23 ∧ 0 ≤ mi ∧ mi ≤ 59 ∧ 0 ≤ s ∧ s ≤ 59 then
    .ok ⟨y.toNat, mo.toNat, d.toNat, h.toNat, mi.toNat, s.toNat⟩
  else .error .value

/-- Seconds since 1970 of a datetime: `(utc - _posixEpoch).total_seconds()`. -/
def secondsOfDatetime (t : DateTime) : Int :=
  (((daysBeforeYear t.year + daysBeforeMonth t.year t.month + (t.day - 1)) * 86400 +
    t.hour * 3600 + t.minute * 60 + t.second : Nat) : Int) - (epochDays * 86400 : Nat)

/-- A decimal digit character. -/
def digitChar (n : Nat) : Nat := 48 + n % 10

/-- The decimal digits of a number, without padding. -/
def decimal (n : Nat) : List Nat :=
  if n < 10 then [digitChar n] else decimal (n / 10) ++ [digitChar n]

/-- A number padded with zeros to two digits (`%m`, `%d`, `%H`, `%M`, `%S`). -/
def pad2 (n : Nat) : List Nat := [digitChar (n / 10), digitChar n]

/-- `strftime("%Y%m%dT%H%M%S")`.  On Linux `%Y` does not pad the year. -/
def strftimeIso (t : DateTime) : List Nat :=
  decimal t.year ++ pad2 t.month ++ pad2 t.day ++ [84] ++ pad2 t.hour ++ pad2 t.minute ++ pad2 t.second

/-- Python's `round(x / 1000.0)` for a whole number of milliseconds: to the nearest, ties to even. -/
def roundThousand (ms : Int) : Int :=
  let q := ms / 1000
  let r := ms % 1000
  if r < 500 then q else if r > 500 then q + 1 else if q % 2 = 0 then q else q + 1

/-- `Tlv0_2WireFormat.toIsoString` (tlv_0_2_wire_format.py:1590-1601) for a whole number of
milliseconds. -/
def toIsoString (ms : Int) : Except Err (List Nat) :=
  (datetimeFromSeconds (roundThousand ms)).map strftimeIso

/-- The value of digits separated by single underscores, as Python's `int()` accepts them. -/
def pyDigits : List Nat → Option Nat → Option Nat
  | [], acc => acc
  | c :: cs, acc =>
    if 48 ≤ c ∧ c ≤ 57 then pyDigits cs (some (acc.getD 0 * 10 + (c - 48)))
    else if c = 95 ∧ acc.isSome then
      match cs with
      | d :: ds =>
        if 48 ≤ d ∧ d ≤ 57 then pyDigits ds (some (acc.getD 0 * 10 + (d - 48))) else none
      | [] => none
    else none

/-- ASCII white space that `int()` strips. -/
def isSpace (c : Nat) : Bool := c == 32 || (9 ≤ c && c ≤ 13) || (28 ≤ c && c ≤ 31)

/-- Python's `int(str)`: surrounding white space, a sign, digits with single underscores between
them.  Simplification: Python also accepts the digits and spaces of other scripts; here every
non-ASCII character is refused. -/
def pyInt (s : List Nat) : Except Err Int :=
  let s := (s.dropWhile isSpace).reverse.dropWhile isSpace |>.reverse
  let r : Option Int := match s with
    | 45 :: ds => (pyDigits ds none).map fun n => -(n : Int)
    | 43 :: ds => (pyDigits ds none).map fun n => (n : Int)
    | ds => (pyDigits ds none).map fun n => (n : Int)
  match r with
  | some n => .ok n
  | none => .error .value

/-- `Tlv0_2WireFormat.fromIsoString` (tlv_0_2_wire_format.py:1604-1623), in milliseconds. -/
def fromIsoString (s : List Nat) : Except Err Int :=
  if s.length ≠ 15 ∨ (s.drop 8).take 1 ≠ [84] then .error .runtime
  else do
    let y ← pyInt (s.take 4)
    let mo ← pyInt ((s.drop 4).take 2)
    let d ← pyInt ((s.drop 6).take 2)
    let h ← pyInt ((s.drop 9).take 2)
    let mi ← pyInt ((s.drop 11).take 2)
    let sec ← pyInt ((s.drop 13).take 2)
    let t ← mkDateTime y mo d h mi sec
    return secondsOfDatetime t * 1000

/-- `Blob(str).buf()` for a string of ASCII characters. -/
def asciiBytes (s : List Nat) : Bytes := s.map UInt8.ofNat

end PyNDN
