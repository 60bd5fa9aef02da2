import Verif.Model.Str

/-! Classes of characters, written out for ASCII; `u` says what Unicode has beyond it. -/

namespace Scheme

/-- A character of a word: letters, digits, the underscore. -/
def WordChar (u : Chars) (c : Char) : Prop :=
  ('a' ≤ c ∧ c ≤ 'z') ∨ ('A' ≤ c ∧ c ≤ 'Z') ∨ ('0' ≤ c ∧ c ≤ '9') ∨ c = '_' ∨ (128 ≤ c.toNat ∧ u.uword c = true)

/-- White space: tabulator, line feed, vertical tabulator, form feed, carriage return, the four separators, space. -/
def BlankChar (u : Chars) (c : Char) : Prop :=
  c.toNat ∈ [9, 10, 11, 12, 13, 28, 29, 30, 31, 32] ∨ (128 ≤ c.toNat ∧ u.uspace c = true)

/-- A decimal digit and its value. -/
def DigitChar (u : Chars) (c : Char) (d : Nat) : Prop :=
  (d < 10 ∧ c.toNat = '0'.toNat + d) ∨ (128 ≤ c.toNat ∧ ∃ e, u.udigit c = some e ∧ e.val = d)

end Scheme
