import Verif.Props.Map
import Verif.Props.DateTime
import Verif.Props.Poly
import Verif.Spec.Causes
import Verif.Spec.Settled
import Verif.Spec.DateText

/-! Schemas and values for which the serialized form carries the whole value. -/

namespace Scheme

/-- The default of a member means the same as a native and as a serialized value. -/
def DefaultAgrees (env : Env) (g : Field) (c : Common) : Prop :=
  c.default ≠ .none → ∀ m anc anc' r,
    process env m g c.default .inbound true anc = .ok r ↔ process env m g c.default .inbound false anc' = .ok r

/-- The restrictions on a member given as `o` (or not given). -/
def MemberFaithful (env : Env) (g : Field) (c : Common) (o : Option Val) : Prop :=
  (c.ignoreNull = true → c.default = .none ∧ c.required = false) ∧ (o = none → DefaultAgrees env g c)

/-- A datetime whose serialized form carries it entirely: `d` in the zone of the field is `d'`, `d'` in UTC is
`x`, and `x` has whole seconds and a year of four digits. -/
def WholeDateTime (env : Env) (utc : Bool) (d : PDateTime) : Prop :=
  ∀ d', Normalized env utc d d' → ∃ x,
    (if utc then x = d' else env.astz d' .utc = .ok x ∧ env.astz x .localTz = .ok d') ∧
    CalendarDate x.date ∧ ClockTime x.time ∧ (env.padYear = true ∨ 1000 ≤ x.date.year) ∧ x.time.micro = 0

/-- The restrictions on one field and the native value given to it. -/
def Faithful (env : Env) (f : Field) (v : Val) : Prop :=
  Settled env f ∧
  match f with
  | .leaf _ (.date ..) => (∀ d, v ≠ .datetime d) ∧
      ∀ d, v = .date d → CalendarDate d ∧ (env.padYear = true ∨ 1000 ≤ d.year)
  | .leaf _ (.time ..) => ∀ t, v = .time t → ClockTime t ∧ t.micro = 0
  | .leaf _ (.datetime _ _ utc) => ∀ d, v = .datetime d → WholeDateTime env utc d
  | .leaf _ .object => v = .none
  | .leaf _ (.definition _) => v = .none
  | .leaf _ .error => v = .none
  | .leaf _ (.surrogate _) => v = .none
  | .map _ key _ _ => ∀ d, v = .dict d → d.Pairwise fun e1 e2 => ∀ m ph ser a1 a2 k1 k2,
      (ph = .outbound ∧ ser = true ∨ ph = .inbound ∧ ser = false) →
      KeyOk env m ph ser a1 key e1.1 k1 → KeyOk env m ph ser a2 key e2.1 k2 → pyEq k2 k1 = false
  | .union _ fs => v ≠ .none → WrittenApart env fs v
  | .structure _ defn _ _ => ∀ d, v = .dict d → ∀ name g c, Declares env defn name g c →
      MemberFaithful env g c (given d name)
  | .poly _ disc vs _ _ => ∀ d, v = .dict d →
      (∀ i defn, (i, defn) ∈ vs → ∀ name g c, Declares env defn name g c → MemberFaithful env g c (given d name)) ∧
      ∀ raw m a1 a2 x y, given d (disc.name.getD []) = some raw →
        process env m disc raw .outbound true a1 = .ok x → process env m disc raw .inbound false a2 = .ok y →
        variantFor vs x = variantFor vs y
  | _ => True

end Scheme
