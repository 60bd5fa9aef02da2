import Verif.Model.Surrogate
import Verif.Spec.Members

/-! Vocabulary for C51. -/

namespace Scheme

/-- Contents that use none of the names surrogates reserve. -/
def Unreserved (d : List (Val × Val)) : Prop :=
  given d c!"_" = none ∧ given d c!"__version__" = none ∧ given d c!"__schema__" = none

/-- Schema number `k` of a list, counted from one. -/
def schemaNo (schemas : List Field) (k : Nat) : Option Field := if k = 0 then none else schemas[k - 1]?

/-- Whether a value is a dict. -/
def isDictVal : Val → Bool
  | .dict _ => true
  | _ => false

end Scheme
