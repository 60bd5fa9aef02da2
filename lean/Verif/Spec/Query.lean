import Verif.Model.UrlEncoded

/-! The queries browsers and other programs write: independent grammar of url-encoded texts. -/

namespace Scheme

/-- A hexadecimal digit, of either case. -/
inductive HexDigit : Char → Nat → Prop
  | digit {n} : n < 10 → HexDigit (Char.ofNat (48 + n)) n
  | upper {n} : 10 ≤ n → n < 16 → HexDigit (Char.ofNat (55 + n)) n
  | lower {n} : 10 ≤ n → n < 16 → HexDigit (Char.ofNat (87 + n)) n

/-- Bytes written as percent signs and two hexadecimal digits. -/
inductive PctText : List Byte → Str → Prop
  | nil : PctText [] []
  | cons {bs t a b x y} {z : Byte} : HexDigit a x → HexDigit b y → z.val = x * 16 + y → PctText bs t →
      PctText (z :: bs) ('%' :: a :: b :: t)

/-- `t` spells the text `s` inside a query, within the name of a parameter or its value: characters stand for themselves
or are given by the bytes of their UTF-8 encoding; blanks may also be given by `+`; a percent sign that introduces no
byte stands for itself. -/
inductive Spelled (name : Bool) : Str → Str → Prop
  | nil : Spelled name [] []
  | self {c s t} : c ≠ '%' → c ≠ '+' → c ≠ '&' → c ≠ ';' → (name = true → c ≠ '=') → Spelled name s t →
      Spelled name (c :: s) (c :: t)
  | blank {s t} : Spelled name s t → Spelled name (' ' :: s) ('+' :: t)
  | bytes {c p s t} : PctText (utf8Char c) p → Spelled name s t → Spelled name (c :: s) (p ++ t)
  | stray {s t} : (∀ a b r x y, t = a :: b :: r → HexDigit a x → HexDigit b y → False) → Spelled name s t →
      Spelled name ('%' :: s) ('%' :: t)

/-- One parameter of a query, and what it holds: nothing if it has no equals sign or no value. -/
inductive Param : Str → List (Str × Str) → Prop
  | pair {k v a b} : Spelled true k a → Spelled false v b → v ≠ [] → Param (a ++ '=' :: b) [(k, v)]
  | empty {a} : '=' ∉ a → '&' ∉ a → ';' ∉ a → Param (a ++ ['=']) []
  | bare {a} : '=' ∉ a → '&' ∉ a → ';' ∉ a → Param a []

/-- A query and the names and values it holds, in order. -/
inductive Query : Str → List (Str × Str) → Prop
  | one {p es} : Param p es → Query p es
  | more {p q es fs sep} : Param p es → (sep = '&' ∨ sep = ';') → Query q fs → Query (p ++ sep :: q) (es ++ fs)

/-- Characters that urlencode leaves alone. -/
def Unescaped (c : Char) : Prop :=
  ('a' ≤ c ∧ c ≤ 'z') ∨ ('A' ≤ c ∧ c ≤ 'Z') ∨ ('0' ≤ c ∧ c ≤ '9') ∨ c = '_' ∨ c = '.' ∨ c = '-' ∨ c = '~'

end Scheme
