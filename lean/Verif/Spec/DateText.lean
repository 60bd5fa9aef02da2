import Verif.Spec.Chars
import Verif.Model.Field

/-! Independent grammars of the date and time texts, and the calendar. -/

namespace Scheme

/-- The ASCII digit of a number below ten. -/
def adigit (n : Nat) : Char := Char.ofNat (48 + n)

/-- `c` is a decimal digit (of any script) of value `n`. -/
def IsDigit (u : Chars) (c : Char) (n : Nat) : Prop := DigitChar u c n

/-- Four digits. -/
def YearText (u : Chars) (t : Str) (y : Nat) : Prop :=
  ∃ c1 c2 c3 c4 a b c d, t = [c1, c2, c3, c4] ∧ IsDigit u c1 a ∧ IsDigit u c2 b ∧ IsDigit u c3 c ∧
    IsDigit u c4 d ∧ y = a * 1000 + b * 100 + c * 10 + d

/-- One or two ASCII digits spelling 1..12. -/
def MonthText (t : Str) (m : Nat) : Prop :=
  (1 ≤ m ∧ m ≤ 9 ∧ t = [adigit m]) ∨ (1 ≤ m ∧ m ≤ 12 ∧ t = [adigit (m / 10), adigit (m % 10)])

/-- One or two digits spelling 1..31, or a blank and one digit.  The first digit is ASCII, the second
as well unless the first is 1 or 2. -/
def DayText (u : Chars) (t : Str) (d : Nat) : Prop :=
  (1 ≤ d ∧ d ≤ 9 ∧ (t = [adigit d] ∨ t = [' ', adigit d])) ∨
  (1 ≤ d ∧ d ≤ 31 ∧ ∃ c, t = [adigit (d / 10), c] ∧ IsDigit u c (d % 10) ∧
    ((d < 10 ∨ 30 ≤ d) → c = adigit (d % 10)))

/-- One digit of any script, or an ASCII digit and a digit, spelling 0..23; the second digit is ASCII
after a 2. -/
def HourText (u : Chars) (t : Str) (h : Nat) : Prop :=
  (∃ c, t = [c] ∧ IsDigit u c h) ∨
  (h < 24 ∧ ∃ c, t = [adigit (h / 10), c] ∧ IsDigit u c (h % 10) ∧ (20 ≤ h → c = adigit (h % 10)))

/-- One digit of any script, or an ASCII digit and a digit, spelling 0..59. -/
def MinuteText (u : Chars) (t : Str) (m : Nat) : Prop :=
  (∃ c, t = [c] ∧ IsDigit u c m) ∨ (m < 60 ∧ ∃ c, t = [adigit (m / 10), c] ∧ IsDigit u c (m % 10))

/-- `year-month-day` -/
def DateText (u : Chars) (t : Str) (d : PDate) : Prop :=
  ∃ Y M D, t = Y ++ '-' :: (M ++ '-' :: D) ∧ YearText u Y d.year ∧ MonthText M d.month ∧ DayText u D d.day

/-- `hour:minute:second`, no fraction. -/
def TimeText (u : Chars) (t : Str) (x : PTime) : Prop :=
  ∃ H M S, t = H ++ ':' :: (M ++ ':' :: S) ∧ HourText u H x.hour ∧ MinuteText u M x.minute ∧
    MinuteText u S x.second ∧ x.micro = 0

/-- `<date>T<time>Z`; the two letters may be in lower case. -/
def DateTimeText (u : Chars) (s : Str) (d : PDateTime) : Prop :=
  d.tz = some .utc ∧ ∃ D T t z, s = D ++ t :: (T ++ [z]) ∧ (t = 'T' ∨ t = 't') ∧ (z = 'Z' ∨ z = 'z') ∧
    DateText u D d.date ∧ TimeText u T d.time

/-- Length of a month in the Gregorian calendar. -/
def monthLength (y : Nat) : Nat → Nat
  | 1 => 31 | 3 => 31 | 4 => 30 | 5 => 31 | 6 => 30 | 7 => 31 | 8 => 31 | 9 => 30 | 10 => 31 | 11 => 30
  | 12 => 31
  | 2 => if 4 ∣ y ∧ (¬ 100 ∣ y ∨ 400 ∣ y) then 29 else 28
  | _ => 0

/-- An existing day between the years 1 and 9999. -/
def CalendarDate (d : PDate) : Prop :=
  1 ≤ d.year ∧ d.year ≤ 9999 ∧ 1 ≤ d.day ∧ d.day ≤ monthLength d.year d.month

/-- An existing time of day. -/
def ClockTime (t : PTime) : Prop :=
  t.hour ≤ 23 ∧ t.minute ≤ 59 ∧ t.second ≤ 59 ∧ t.micro ≤ 999999

/-- `YYYY-MM-DD` -/
def isoDate (d : PDate) : Str :=
  [adigit (d.year / 1000), adigit (d.year / 100 % 10), adigit (d.year / 10 % 10), adigit (d.year % 10), '-',
   adigit (d.month / 10), adigit (d.month % 10), '-', adigit (d.day / 10), adigit (d.day % 10)]

/-- `HH:MM:SS` -/
def isoTime (t : PTime) : Str :=
  [adigit (t.hour / 10), adigit (t.hour % 10), ':', adigit (t.minute / 10), adigit (t.minute % 10), ':',
   adigit (t.second / 10), adigit (t.second % 10)]

/-- `YYYY-MM-DDTHH:MM:SSZ` -/
def isoDateTime (d : PDateTime) : Str := isoDate d.date ++ ['T'] ++ isoTime d.time ++ ['Z']

/-- Calendar order. -/
def DateBefore (a b : PDate) : Prop :=
  a.year < b.year ∨ a.year = b.year ∧ (a.month < b.month ∨ a.month = b.month ∧ a.day < b.day)

/-- Microseconds since midnight. -/
def microOfDay (t : PTime) : Nat := ((t.hour * 60 + t.minute) * 60 + t.second) * 1000000 + t.micro

/-- Wall clock order. -/
def WallBefore (a b : PDateTime) : Prop :=
  DateBefore a.date b.date ∨ a.date = b.date ∧ microOfDay a.time < microOfDay b.time

/-- The zone of a DateTime field. -/
def fieldZone (utc : Bool) : Tz := if utc then .utc else .localTz

/-- `astimezone(tz)` returns a datetime carrying `tz`. -/
def ZoneLaw (env : Env) : Prop := ∀ d w d', env.astz d w = .ok d' → d'.tz = some w

end Scheme
