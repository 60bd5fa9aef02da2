import Verif.Model.Filter
import Verif.Spec.Filter

/-! Filtering in steps. -/

namespace Scheme

/-- What two successive filters amount to, the second applied to the result of the first: a field left out stays left
out, and a second filter that changes nothing leaves the result of the first. -/
def Filtered.andThen : Filtered → Filtered → Filtered
  | .gone, _ => .gone
  | x, .same => x
  | _, y => y

/-- No polymorphic structure, and no map whose key field has fields below it. -/
def SingleShape : Field → Prop
  | .poly .. => False
  | .map _ (some k) _ _ => ∃ c l, k = .leaf c l
  | _ => True

end Scheme
