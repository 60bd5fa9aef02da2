import Verif.Spec.Sendable
import Verif.Spec.Types

/-! Schemas that can be read, written and read again, and data that may come from outside the program. -/

namespace Scheme

/-- `x` is `v` or occurs somewhere in `v`. -/
inductive OccursIn : Val → Val → Prop
  | here {v} : OccursIn v v
  | list {l v x} : v ∈ l → OccursIn x v → OccursIn x (.list l)
  | tuple {l v x} : v ∈ l → OccursIn x v → OccursIn x (.tuple l)
  | key {d e x} : e ∈ d → OccursIn x e.1 → OccursIn x (.dict d)
  | value {d e x} : e ∈ d → OccursIn x e.2 → OccursIn x (.dict d)

/-- Data as formats have it: no datetime objects, dates and times only with what their texts can say. (Texts, numbers
and everything else may occur.) -/
def Arriving (v : Val) : Prop :=
  (∀ d, ¬ OccursIn (.datetime d) v) ∧ (∀ d, OccursIn (.date d) v → CalendarDate d) ∧
  ∀ t, OccursIn (.time t) v → ClockTime t ∧ t.micro = 0

/-- Data for the field `f`: as formats have it or, for a DateTime, a moment in UTC with whole seconds. -/
def ArrivingAt (f : Field) (v : Val) : Prop :=
  Arriving v ∨ ∃ c mn mx d, f = .leaf c (.datetime mn mx true) ∧ v = .datetime d ∧ d.tz = some .utc ∧
    CalendarDate d.date ∧ ClockTime d.time ∧ d.time.micro = 0

/-- Restrictions on a schema under which what is read can be written and read again (beside `Sends`). Years below 1000
must be padded by the platform or excluded by a minimum; defaults are read as well; what is written by an alternative
of a union must be told apart from what earlier ones read. -/
def Rereads (env : Env) (f : Field) : Prop :=
  (∀ c, f.common? = some c → ArrivingAt f c.default) ∧
  match f with
  | .leaf _ (.date mn _) => env.padYear = true ∨ ∃ m, mn = some m ∧ 1000 ≤ m.year
  | .leaf _ (.datetime mn _ _) => env.padYear = true ∨ ∃ m, mn = some m ∧ 1000 ≤ m.date.year
  | .leaf _ .error => False
  | .union _ fs => PlainAlternatives env fs ∧ WrittenTypesApart env id fs
  | _ => True

end Scheme
