import Verif.Spec.Faithful
import Verif.Spec.Json

/-! Values whose serialized form passes through JSON without harm. -/

namespace Scheme

/-- The restrictions on one field and the native value given to it: what is written unconverted consists of JSON's data,
floats have a JSON text, there are no bytes (Binary fields write bytes), and the keys of maps are written as texts, or as integers by an Integer field. -/
def JsonReady (env : Env) (f : Field) (v : Val) : Prop :=
  match f with
  | .leaf _ .any => Json.Carries env v v
  | .leaf _ (.enumeration ..) => Json.Carries env v v
  | .leaf _ (.float ..) => ∀ m anc x, process env m f v .outbound true anc = .ok (.float x) → Json.FloatText env x
  | .leaf _ (.binary ..) => v = .none
  | .map _ key _ _ => ∀ d, v = .dict d →
      (∀ e ∈ d, ∀ m anc s, KeyOk env m .outbound true anc key e.1 s → ∃ t, s = .str t) ∨
      (∃ c mn mx, key = some (.leaf c (.integer mn mx))) ∧
        ∀ e ∈ d, ∀ m anc s, KeyOk env m .outbound true anc key e.1 s → ∃ i, s = .int i
  | .union _ fs => v ≠ .none → CarriedApart env (Json.Carries env) fs v
  | _ => True

end Scheme
