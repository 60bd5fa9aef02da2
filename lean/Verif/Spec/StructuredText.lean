import Verif.Model.StructuredText
import Verif.Spec.Instantiate

/-! What structured text can carry. -/

namespace Scheme

/-- Every backslash belongs to a pair of adjacent backslashes. -/
inductive Paired : Str → Prop
  | nil : Paired []
  | plain {c s} : c ≠ '\\' → Paired s → Paired (c :: s)
  | pair {s} : Paired s → Paired ('\\' :: '\\' :: s)

/-- Spelled `true`, `false` or `null` in any case. -/
def Reserved (u : Chars) (s : Str) : Prop := lower u s = c!"true" ∨ lower u s = c!"false" ∨ lower u s = c!"null"

/-- Spelled `||n||` for a number `n`. -/
def TokenLike (s : Str) : Prop := ∃ n, s = c!"||" ++ natStr n ++ c!"||"

/-- Spelled like a number. -/
def NumberLike (env : Env) (s : Str) : Prop :=
  (∃ i, parseInt env.u s = some i) ∨ ('.' ∈ s ∧ ∃ x, env.floatOfStr s = some x)

/-- No bracket of any kind. -/
def NoBrackets (s : Str) : Prop := '{' ∉ s ∧ '}' ∉ s ∧ '[' ∉ s ∧ ']' ∉ s

/-- A text that can stand in a list or mapping. -/
def TextOk (env : Env) (numbers : Bool) (s : Str) : Prop :=
  Paired s ∧ ',' ∉ s ∧ ¬ Reserved env.u s ∧ ¬ TokenLike s ∧ (numbers = true → NoBrackets s ∧ ¬ NumberLike env s)

/-- A text that can be a key. -/
def PlainKey (k : Str) : Prop := Paired k ∧ ',' ∉ k ∧ ':' ∉ k ∧ NoBrackets k

/-- A list or a dict. -/
def IsContainer (v : Val) : Prop := (∃ l, v = .list l) ∨ ∃ d, v = .dict d

/-- Values that structured text carries faithfully.  A text with the opening bracket of the list or mapping it stands
in must not stand next to nested lists or mappings. -/
inductive Writable (env : Env) (numbers : Bool) : Val → Prop
  | none : Writable env numbers .none
  | bool (b : Bool) : Writable env numbers (.bool b)
  | int (i : Int) : numbers = true → Writable env numbers (.int i)
  | text {s} : TextOk env numbers s → Writable env numbers (.str s)
  | list {l} : l ≠ [.str []] → ((∃ x ∈ l, IsContainer x) → ∀ s, .str s ∈ l → '[' ∉ s) →
      (∀ x ∈ l, Writable env numbers x) → Writable env numbers (.list l)
  | dict {d} : (d.map (·.1)).Nodup → (∀ e ∈ d, ∃ k, e.1 = .str k ∧ PlainKey k) →
      ((∃ e ∈ d, IsContainer e.2) → ∀ e ∈ d, ∀ s, e.2 = .str s → '{' ∉ s) →
      (∀ e ∈ d, Writable env numbers e.2) → Writable env numbers (.dict d)

/-- Every bracket has a backslash right before it. -/
def BracketsEscaped (s : Str) : Prop :=
  ∀ a c b, s = a ++ c :: b → (c = '{' ∨ c = '}' ∨ c = '[' ∨ c = ']') → ∃ a', a = a' ++ ['\\']

end Scheme
