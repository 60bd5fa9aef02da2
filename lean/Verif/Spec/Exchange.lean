import Verif.Spec.Describe
import Verif.Spec.Json

/-! Schemas whose descriptions JSON keeps as they are. -/

namespace Scheme

/-- Made of None, booleans, integers, floats with a text, texts, lists, and dicts whose keys are different texts. -/
inductive JsonKept (env : Env) : Val → Prop
  | none : JsonKept env .none
  | bool (b) : JsonKept env (.bool b)
  | int (i) : JsonKept env (.int i)
  | float {x} : Json.FloatText env x → JsonKept env (.float x)
  | str (s) : JsonKept env (.str s)
  | list {l} : (∀ v ∈ l, JsonKept env v) → JsonKept env (.list l)
  | dict {d : List (Str × Val)} : (d.map (·.1)).Nodup → (∀ e ∈ d, JsonKept env e.2) →
      JsonKept env (.dict (d.map fun e => (.str e.1, e.2)))

/-- Kept, or left out of descriptions. -/
def KeptOrLeftOut (env : Env) (v : Val) : Prop := JsonKept env v ∨ OpaqueVal v

/-- The attributes every field has. -/
structure KeptCommon (env : Env) (c : Common) : Prop where
  constant : KeptOrLeftOut env c.constant
  description : KeptOrLeftOut env c.description
  default : KeptOrLeftOut env c.default
  title : KeptOrLeftOut env c.title
  notes : KeptOrLeftOut env c.notes
  aspects : ∀ e ∈ c.aspects, KeptOrLeftOut env e.2

/-- What else is in the description of a field: enumerations, bounds of floats and required keys are kept; there are no
valid fields or surrogates, which are tuples; members have different names and identities are texts. -/
def KeptParts (env : Env) : Field → Prop
  | .leaf _ (.definition valid) => valid = []
  | .leaf _ (.surrogate valid) => valid = []
  | .leaf _ (.enumeration vals _) => ∀ v ∈ vals, JsonKept env v
  | .leaf _ (.float mn mx) => ∀ x, mn = some x ∨ mx = some x → Json.FloatText env x
  | .map _ _ _ req => ∀ v ∈ req, JsonKept env v
  | .structure _ defn _ _ => (defn.map (·.1)).Nodup
  | .poly _ _ variants _ _ => ∀ v ∈ variants, (∃ s, v.1 = .str s) ∧ (v.2.map (·.1)).Nodup
  | _ => True

/-- JSON keeps all that a description says of this field. -/
structure Exchangeable (env : Env) (f : Field) : Prop where
  common : ∀ c, f.common? = some c → KeptCommon env c
  parts : KeptParts env f

end Scheme
