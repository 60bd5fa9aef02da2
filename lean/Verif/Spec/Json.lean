import Verif.Model.Field

/-! What JSON keeps of a value. -/

namespace Scheme.Json

/-- ASCII digits, at least one. -/
def Digits (s : Str) : Prop := s ≠ [] ∧ ∀ c ∈ s, c ∈ c!"0123456789"

/-- JSON's text of a number with a fraction or an exponent. -/
def RealText (t : Str) : Prop :=
  ∃ sign whole frac exp : Str, t = sign ++ whole ++ frac ++ exp ∧ (sign = [] ∨ sign = c!"-") ∧
    (whole = c!"0" ∨ (Digits whole ∧ whole.head? ≠ some '0')) ∧
    (frac = [] ∨ ∃ ds, Digits ds ∧ frac = '.' :: ds) ∧
    (exp = [] ∨ ∃ e s ds, (e = 'e' ∨ e = 'E') ∧ (s = [] ∨ s = c!"+" ∨ s = c!"-") ∧ Digits ds ∧ exp = e :: (s ++ ds)) ∧
    (frac ≠ [] ∨ exp ≠ [])

/-- A float whose text is JSON and is read as the same float; CPython guarantees it for finite floats. -/
def FloatText (env : Env) : PyFloat → Prop
  | .fin q => RealText (env.repr (.float (.fin q))) ∧ env.floatOfStr (env.repr (.float (.fin q))) = some (.fin q)
  | _ => True

/-- The text a key becomes. -/
inductive KeyText (env : Env) : Val → Str → Prop
  | str (s) : KeyText env (.str s) s
  | int (i) : KeyText env (.int i) (intStr i)
  | yes : KeyText env (.bool true) c!"true"
  | no : KeyText env (.bool false) c!"false"
  | none : KeyText env .none c!"null"
  | float (q) : KeyText env (.float (.fin q)) (env.repr (.float (.fin q)))
  | infinity : KeyText env (.float (.inf false)) c!"Infinity"
  | minus : KeyText env (.float (.inf true)) c!"-Infinity"
  | nan : KeyText env (.float .nan) c!"NaN"

/-- JSON carries `v` as `w`: tuples become lists, keys become texts (which must stay distinct), everything else stays. -/
inductive Carries (env : Env) : Val → Val → Prop
  | none : Carries env .none .none
  | bool (b) : Carries env (.bool b) (.bool b)
  | int (i) : Carries env (.int i) (.int i)
  | float {x} : FloatText env x → Carries env (.float x) (.float x)
  | str (s) : Carries env (.str s) (.str s)
  | list {ps : List (Val × Val)} : (∀ p ∈ ps, Carries env p.1 p.2) → Carries env (.list (ps.map (·.1))) (.list (ps.map (·.2)))
  | tuple {ps : List (Val × Val)} : (∀ p ∈ ps, Carries env p.1 p.2) → Carries env (.tuple (ps.map (·.1))) (.list (ps.map (·.2)))
  | dict {es : List ((Val × Str) × Val × Val)} : (es.map (·.1.2)).Nodup → (∀ e ∈ es, KeyText env e.1.1 e.1.2) →
      (∀ e ∈ es, Carries env e.2.1 e.2.2) →
      Carries env (.dict (es.map fun e => (e.1.1, e.2.1))) (.dict (es.map fun e => (.str e.1.2, e.2.2)))

/-- Keys JSON has a text for: None, booleans, numbers and texts. -/
def Keyable : Val → Prop
  | .none | .bool _ | .int _ | .float _ | .str _ => True
  | _ => False

/-- Values JSON has a text for. -/
inductive Writable : Val → Prop
  | none : Writable .none
  | bool (b) : Writable (.bool b)
  | int (i) : Writable (.int i)
  | float (x) : Writable (.float x)
  | str (s) : Writable (.str s)
  | list {l} : (∀ v ∈ l, Writable v) → Writable (.list l)
  | tuple {l} : (∀ v ∈ l, Writable v) → Writable (.tuple l)
  | dict {d} : (∀ e ∈ d, Keyable e.1) → (∀ e ∈ d, Writable e.2) → Writable (.dict d)

end Scheme.Json
