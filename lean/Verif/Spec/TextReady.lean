import Verif.Spec.Faithful
import Verif.Spec.StructuredText

/-! Values whose serialized form passes through formats that know only text. -/

namespace Scheme

/-- A value and the one that comes back when numbers come back as their texts, and tuples as lists. -/
inductive Texted (env : Env) : Val → Val → Prop
  | none : Texted env .none .none
  | bool (b : Bool) : Texted env (.bool b) (.bool b)
  | text (s : Str) : Texted env (.str s) (.str s)
  | int (i : Int) : Texted env (.int i) (.str (intStr i))
  | float {x : PyFloat} : NoBrackets (env.str (.float x)) → Texted env (.float x) (.str (env.str (.float x)))
  | list {ps : List (Val × Val)} : (∀ p ∈ ps, Texted env p.1 p.2) → Texted env (.list (ps.map (·.1))) (.list (ps.map (·.2)))
  | tuple {ps : List (Val × Val)} : (∀ p ∈ ps, Texted env p.1 p.2) → Texted env (.tuple (ps.map (·.1))) (.list (ps.map (·.2)))
  | dict {es : List (Str × Val × Val)} : (∀ e ∈ es, Texted env e.2.1 e.2.2) →
      Texted env (.dict (es.map fun e => (.str e.1, e.2.1))) (.dict (es.map fun e => (.str e.1, e.2.2)))

/-- The restrictions on one field and the native value given to it: what is written unconverted contains neither numbers nor tuples;
floats are read back from their text; no bytes; the keys of maps are written as texts. -/
def TextReady (env : Env) (f : Field) (v : Val) : Prop :=
  match f with
  | .leaf _ .any => Texted env v v
  | .leaf _ (.enumeration ..) => Texted env v v
  | .leaf _ (.float ..) => ∀ m anc x, process env m f v .outbound true anc = .ok (.float x) →
      env.floatOfStr (env.str (.float x)) = some x ∧ NoBrackets (env.str (.float x))
  | .leaf _ (.binary ..) => v = .none
  | .map _ key _ _ => ∀ d, v = .dict d → ∀ e ∈ d, ∀ m anc s, KeyOk env m .outbound true anc key e.1 s → ∃ t, s = .str t
  | .union _ fs => v ≠ .none → CarriedApart env (Texted env) fs v
  | _ => True

end Scheme
