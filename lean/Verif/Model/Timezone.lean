import Verif.Model.Codec
import Verif.Model.Errors

/-! Time zones (scheme/timezone.py), and the part of CPython's datetime that calls them. -/

namespace Scheme

/-- Microseconds of a second, of a minute, of a day.  A `timedelta` is its length in microseconds. -/
def usSecond : Int := 1000000
def usMinute : Int := 60000000
def usDay : Int := 86400000000

/-- `timedelta(minutes=m)` for an integer (simplification: fractions of minutes cannot be given). -/
def tdMinutes (m : Int) : Except PyErr Int :=
  if -999999999 ≤ m * usMinute / usDay ∧ m * usMinute / usDay ≤ 999999999 then .ok (m * usMinute)
  else .error .overflowError

/-- `td.days` -/
def tdDays (d : Int) : Int := d / usDay
/-- `td.seconds` -/
def tdSeconds (d : Int) : Int := d % usDay / usSecond

/-- A FixedOffsetTimezone (timezone.py:15-24).  Simplification: a name is a text. -/
structure FixedZone where
  name : Option Str
  offset : Option Int
  deriving DecidableEq

/-- `FixedOffsetTimezone(offset, name)` (timezone.py:19-24) -/
def FixedZone.init (offset : Option Int) (name : Option Str) : Except PyErr FixedZone :=
  match offset with
  | some m => (tdMinutes m).map fun d => ⟨name, some d⟩
  | none => .ok ⟨name, none⟩

/-- `'%+03d' % n` -/
def plus03d (n : Int) : Str := (if n < 0 then '-' else '+') :: padNat 2 n.natAbs

/-- FixedOffsetTimezone.tzname (timezone.py:34-45): `minutes` is a float, true unless no seconds are left, and `%d`
truncates it.  `None.seconds` is an AttributeError. -/
def FixedZone.tzname (z : FixedZone) : Except PyErr Str :=
  match z.name with
  | some n => .ok n
  | none =>
    match z.offset with
    | none => .error .attributeError
    | some d =>
      let seconds := tdSeconds d + tdDays d * 86400
      let hours := seconds / 3600
      let rest := seconds % 3600
      if rest ≠ 0 then .ok (plus03d hours ++ ':' :: natStr (rest / 60).toNat) else .ok (plus03d hours)

/-- FixedOffsetTimezone.__repr__ (timezone.py:26-29) -/
def FixedZone.repr (z : FixedZone) : Except PyErr Str :=
  match z.name with
  | some (c :: r) => .ok (c :: r)
  | _ =>
    match z.offset with
    | none => .error .attributeError
    | some d => .ok (c!"FixedOffsetTimezone(" ++ intStr (tdSeconds d) ++ c!")")

/-- What the module `time` says of this machine: `timezone`, `altzone` and `daylight`, and whether
`localtime(mktime(wall clock))` is daylight saving time (timezone.py:69-72), by the seconds of the wall clock since
year 1.  `system` is the offset of the system's own zone, used by datetime for zones without an offset; `others` are
further FixedOffsetTimezone objects (simplification: there are no other zone classes). -/
structure Clock where
  timezone : Int
  altzone : Int
  daylight : Bool
  isdst : Int → Except PyErr Bool
  system : Int → Except PyErr Int
  others : Nat → FixedZone

/-- STD_OFFSET (timezone.py:8) -/
def Clock.std (clk : Clock) : Int := -clk.timezone * usSecond
/-- DST_OFFSET (timezone.py:9-12) -/
def Clock.dst (clk : Clock) : Int := if clk.daylight then -clk.altzone * usSecond else clk.std
/-- DST_DIFF (timezone.py:13) -/
def Clock.diff (clk : Clock) : Int := clk.dst - clk.std

/-- UTC (timezone.py:75) -/
def utcZone : FixedZone := ⟨some c!"UTC", some 0⟩

/-- datetime refuses offsets of a day and more. -/
def offsetChecked (o : Int) : Except PyErr Int :=
  if -usDay < o ∧ o < usDay then .ok o else .error .valueError

/-- The object a zone stands for; `none` is LOCAL. -/
def Clock.fixed (clk : Clock) : Tz → Option FixedZone
  | .utc => some utcZone
  | .localTz => none
  | .other i => some (clk.others i)

/-- `tz.utcoffset(wall)` as datetime calls it (timezone.py:47-48, 63-67); the wall clock in microseconds. -/
def Clock.utcoffset (clk : Clock) (tz : Tz) (wall : Int) : Except PyErr (Option Int) :=
  match clk.fixed tz with
  | some z =>
    match z.offset with
    | some o => (offsetChecked o).map some
    | none => .ok none
  | none => do
    let b ← clk.isdst (wall / usSecond)
    (offsetChecked (if b then clk.dst else clk.std)).map some

/-- `tz.dst(wall)` (timezone.py:31-32, 54-58) -/
def Clock.dstAt (clk : Clock) (tz : Tz) (wall : Int) : Except PyErr Int :=
  match clk.fixed tz with
  | some _ => .ok 0
  | none => do
    let b ← clk.isdst (wall / usSecond)
    offsetChecked (if b then clk.diff else 0)

/-- The end of the year 9999, in microseconds since year 1. -/
def wallEnd : Int := 3652059 * usDay

/-- `wall + delta` -/
def wallAdd (wall d : Int) : Except PyErr Int :=
  if 0 ≤ wall + d ∧ wall + d < wallEnd then .ok (wall + d) else .error .overflowError

/-- `tzinfo.fromutc` of CPython, which the zones inherit. -/
def Clock.fromutc (clk : Clock) (tz : Tz) (wall : Int) : Except PyErr Int := do
  match ← clk.utcoffset tz wall with
  | none => .error .valueError
  | some off =>
    let d ← clk.dstAt tz wall
    let r ← wallAdd wall (off - d)
    let d' ← clk.dstAt tz r
    wallAdd r d'

/-- The offset `astimezone` subtracts. -/
def Clock.sourceOffset (clk : Clock) (tz : Tz) (wall : Int) : Except PyErr Int := do
  match ← clk.utcoffset tz wall with
  | some o => .ok o
  | none => clk.system wall

/-- `datetime.astimezone` of CPython, on wall clocks. -/
def Clock.astimezone (clk : Clock) (a b : Tz) (wall : Int) : Except PyErr Int :=
  if a = b then .ok wall
  else do
    let o ← clk.sourceOffset a wall
    let u ← wallAdd wall (-o)
    clk.fromutc b u

/-- Days before a year, before a month of it (CPython `_days_before_year`, `_days_before_month`). -/
def daysBeforeYear (y : Nat) : Nat := (y - 1) * 365 + (y - 1) / 4 - (y - 1) / 100 + (y - 1) / 400
def daysBeforeMonth (y : Nat) : Nat → Nat
  | 0 => 0
  | 1 => 0
  | m + 2 => daysBeforeMonth y (m + 1) + daysInMonth y (m + 1)

/-- `d.toordinal() - 1` -/
def dayCount (d : PDate) : Nat := daysBeforeYear d.year + daysBeforeMonth d.year d.month + (d.day - 1)

/-- The day after. -/
def nextDay (d : PDate) : PDate :=
  if d.day < daysInMonth d.year d.month then { d with day := d.day + 1 }
  else if d.month < 12 then ⟨d.year, d.month + 1, 1⟩
  else ⟨d.year + 1, 1, 1⟩

/-- `date.fromordinal(n + 1)` -/
def dateOfCount : Nat → PDate
  | 0 => ⟨1, 1, 1⟩
  | n + 1 => nextDay (dateOfCount n)

/-- A time of day from microseconds. -/
def timeOfCount (n : Nat) : PTime :=
  ⟨n / 3600000000, n / 60000000 % 60, n / 1000000 % 60, n % 1000000⟩

/-- The wall clock of a datetime, in microseconds since year 1. -/
def wallOf (d : PDateTime) : Int :=
  dayCount d.date * usDay +
    (((d.time.hour * 60 + d.time.minute) * 60 + d.time.second) * 1000000 + d.time.micro : Nat)

/-- The datetime showing a wall clock. -/
def ofWall (w : Int) (tz : Tz) : PDateTime :=
  ⟨dateOfCount (w / usDay).toNat, timeOfCount (w % usDay).toNat, some tz⟩

/-- `d.astimezone(tz)` for a datetime that has a zone; without one the system's is assumed. -/
def Clock.astz (clk : Clock) (d : PDateTime) (tz : Tz) : Except PyErr PDateTime :=
  match d.tz with
  | some a => if a = tz then .ok d else (clk.astimezone a tz (wallOf d)).map (ofWall · tz)
  | none => do
    let o ← clk.system (wallOf d)
    let u ← wallAdd (wallOf d) (-o)
    (clk.fromutc tz u).map (ofWall · tz)

end Scheme
