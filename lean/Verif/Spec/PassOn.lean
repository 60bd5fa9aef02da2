import Verif.Spec.Schema
import Verif.Model.FieldFormat

/-! What readers of documents give, whatever the document. -/

namespace Scheme

/-- None, booleans, integers, floats of a kind, texts, lists of such and dicts of such with distinct texts as keys. -/
inductive PlainData (F : PyFloat → Prop) : Val → Prop
  | none : PlainData F .none
  | bool (b) : PlainData F (.bool b)
  | int (i) : PlainData F (.int i)
  | float {x} : F x → PlainData F (.float x)
  | str (s) : PlainData F (.str s)
  | list {l} : (∀ x ∈ l, PlainData F x) → PlainData F (.list l)
  | dict {l : List (Str × Val)} : (l.map (·.1)).Nodup → (∀ e ∈ l, PlainData F e.2) → PlainData F (.dict (l.map fun e => (.str e.1, e.2)))

/-- A float that `float()` makes of some text, or an infinity or NaN. -/
def OfText (env : Env) (x : PyFloat) : Prop := (∃ s, env.floatOfStr s = some x) ∨ ∀ q, x ≠ .fin q

/-- A reader that gives plain data to a field. -/
def GivesPlain (env : Env) (ops : FormatOps) (f : Field) : Prop := ∀ t u, ops.read t f = .ok u → PlainData (OfText env) u

/-- Not a tuple field. -/
def NoTuple : Field → Prop
  | .tuple .. => False
  | _ => True

end Scheme
