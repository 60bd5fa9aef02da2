import Verif.Model.Timezone
import Verif.Spec.DateText

/-! What offsets, their names and conversions between zones mean. -/

namespace Scheme

/-- The customary reading of an offset: a sign, two digits of hours and possibly a colon and two digits of minutes, the
sign belonging to both. -/
def IsoOffset (s : Str) (minutes : Int) : Prop :=
  ∃ (neg : Bool) (h m : Nat), h < 100 ∧ m < 60 ∧
    (s = [if neg then '-' else '+', adigit (h / 10), adigit (h % 10), ':', adigit (m / 10), adigit (m % 10)] ∨
      m = 0 ∧ s = [if neg then '-' else '+', adigit (h / 10), adigit (h % 10)]) ∧
    minutes = (if neg then -1 else 1) * (60 * h + m : Int)

/-- The offset in force in a zone when its clocks show `wall`. -/
def OffsetAt (clk : Clock) (tz : Tz) (wall o : Int) : Prop :=
  match tz with
  | .utc => o = 0
  | .other i => (clk.others i).offset = some o
  | .localTz => ∃ b, clk.isdst (wall / 1000000) = .ok b ∧
      o = (if b ∧ clk.daylight then -clk.altzone else -clk.timezone) * 1000000

/-- The instant (as a UTC wall clock) a wall clock denotes. -/
def WallDenotes (clk : Clock) (tz : Tz) (wall u : Int) : Prop := ∃ o, OffsetAt clk tz wall o ∧ u = wall - o

/-- Offsets that datetime accepts. -/
def SaneClock (clk : Clock) : Prop :=
  -86400 < clk.timezone ∧ clk.timezone < 86400 ∧ -86400 < clk.altzone ∧ clk.altzone < 86400 ∧
  -86400 < clk.timezone - clk.altzone ∧ clk.timezone - clk.altzone < 86400

/-- Between the years 1 and 9999. -/
def InYears (w : Int) : Prop := 0 ≤ w ∧ w < 3652059 * 86400000000

/-- The C library knows at which instants (seconds, UTC) daylight saving time is in force, and says of a wall clock
second whether it is, at least if only one answer is right. -/
def HonestClock (clk : Clock) (summer : Int → Bool) : Prop :=
  clk.daylight = true ∧ ∀ s : Int, ∃ b, clk.isdst s = .ok b ∧
    (summer (s + clk.timezone) = summer (s + clk.altzone) → b = summer (s + clk.altzone))

end Scheme
