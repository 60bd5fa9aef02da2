import Verif.Spec.Wire
import Verif.Spec.Json

/-! Schemas whose values can be read from JSON, written to it and read again. -/

namespace Scheme

/-- Every float that `float` makes of a text has a JSON text that is read as the same float; true of CPython's floats, whose
`repr` is read back exactly. -/
def FloatTexts (env : Env) : Prop := ∀ s x, env.floatOfStr s = some x → Json.FloatText env x

/-- The same for floats made of integers and booleans. -/
def FloatNumbers (env : Env) : Prop :=
  (∀ i x, env.floatOfInt i = some x → Json.FloatText env x) ∧ Json.FloatText env (.fin 0) ∧ Json.FloatText env (.fin 1)

/-- Defaults that can be written to JSON: JSON data, or dates, times and decimals. -/
def JsonDefault (env : Env) (f : Field) (v : Val) : Prop :=
  Json.Carries env v v ∨
  match f with
  | .leaf _ (.date ..) | .leaf _ (.time ..) | .leaf _ (.datetime ..) | .leaf _ (.decimal ..) => ArrivingAt f v
  | _ => False

/-- Restrictions on a schema under which what is read from JSON can be written to JSON and read again (beside `Sends`). No binary
fields; the keys of maps are texts or integers; what JSON makes of what an alternative of a union writes is told apart from what
earlier ones read; years as in `Rereads`. -/
def JsonRereads (env : Env) (f : Field) : Prop :=
  (∀ c, f.common? = some c → JsonDefault env f c.default) ∧
  match f with
  | .leaf _ (.date mn _) => env.padYear = true ∨ ∃ m, mn = some m ∧ 1000 ≤ m.year
  | .leaf _ (.datetime mn _ _) => env.padYear = true ∨ ∃ m, mn = some m ∧ 1000 ≤ m.date.year
  | .leaf _ (.float ..) => FloatNumbers env
  | .leaf _ .error => False
  | .leaf _ (.binary ..) => False
  | .map _ key _ _ => ∀ kf, key = some kf → (∃ c mn mx, kf = .leaf c (.integer mn mx)) ∨ ∃ c k, kf = .leaf c k ∧
      match k with
      | .email .. | .text .. | .token .. | .uuid => True
      | _ => False
  | .union _ fs => PlainAlternatives env fs ∧ WrittenTypesApart env jsonType fs
  | _ => True

end Scheme
