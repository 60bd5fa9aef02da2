import Verif.Model.Process
import Verif.Spec.Chars

/-! Independent descriptions of texts: stripping, segments, languages. -/

namespace Scheme

/-- What stripping yields: the text between two blank margins, itself without blank ends. -/
def Stripped (p : Char → Bool) (s t : Str) : Prop :=
  ∃ a b, s = a ++ t ++ b ∧ (∀ c ∈ a, p c = true) ∧ (∀ c ∈ b, p c = true) ∧
    (∀ c, t.head? = some c → p c = false) ∧ (∀ c, t.getLast? = some c → p c = false)

/-- The text that a Text field works with: the stripped one, unless `strip=False`. -/
def TextForm (u : Chars) (stripped : Bool) (s t : Str) : Prop :=
  if stripped then Stripped (isSpace u) s t else t = s

/-- The languages of regular expressions. -/
inductive Matches : Re → Str → Prop
  | eps : Matches .eps []
  | cls {p c} : p c = true → Matches (.cls p) [c]
  | seq {a b s t} : Matches a s → Matches b t → Matches (.seq a b) (s ++ t)
  | left {a b s} : Matches a s → Matches (.alt a b) s
  | right {a b s} : Matches b s → Matches (.alt a b) s
  | nil {a} : Matches (.star a) []
  | cons {a s t} : Matches a s → Matches (.star a) t → Matches (.star a) (s ++ t)

/-- Texts joined by a separating character. -/
def Joined (sep : Char) : List Str → Str
  | [] => []
  | [s] => s
  | s :: t :: r => s ++ sep :: Joined sep (t :: r)

/-- A token segment: word characters and `-+.`, first and last a word character. -/
def IsSegment (u : Chars) (s : Str) : Prop :=
  (∀ c ∈ s, WordChar u c ∨ c = '-' ∨ c = '+' ∨ c = '.') ∧
  (∃ c, s.head? = some c ∧ WordChar u c) ∧ (∃ c, s.getLast? = some c ∧ WordChar u c)

/-- Non-empty segments joined by colons. -/
def IsToken (u : Chars) (s : Str) (n : Nat) : Prop :=
  ∃ segs : List Str, segs ≠ [] ∧ segs.length = n ∧ (∀ x ∈ segs, IsSegment u x) ∧ s = Joined ':' segs

/-- Lower-case hexadecimal digit. -/
def IsHex (c : Char) : Prop := c ∈ c!"0123456789abcdef"

/-- 8-4-4-4-12 lower-case hexadecimal digits. -/
def IsUuid (s : Str) : Prop :=
  ∃ a b c d e : Str, s = a ++ '-' :: (b ++ '-' :: (c ++ '-' :: (d ++ '-' :: e))) ∧
    a.length = 8 ∧ b.length = 4 ∧ c.length = 4 ∧ d.length = 4 ∧ e.length = 12 ∧
    ∀ x ∈ a ++ b ++ c ++ d ++ e, IsHex x

/-! ### Email addresses -/

/-- A character of an unquoted local part. -/
def IsAtomChar (c : Char) : Prop :=
  c ∈ c!"abcdefghijklmnopqrstuvwxyzABCDEFGHIJKLMNOPQRSTUVWXYZ0123456789-!#$%&'*+/=?^_`{}|~"

def IsLetter (c : Char) : Prop := c ∈ c!"abcdefghijklmnopqrstuvwxyzABCDEFGHIJKLMNOPQRSTUVWXYZ"

/-- A character of a domain label. -/
def IsLabelChar (c : Char) : Prop :=
  c ∈ c!"abcdefghijklmnopqrstuvwxyzABCDEFGHIJKLMNOPQRSTUVWXYZ0123456789-"

/-- A character that may stand for itself between quotes: ASCII other than NUL, tab, line feed, carriage
return, space, quote and backslash. -/
def IsQText (c : Char) : Prop :=
  0 < c.toNat ∧ c.toNat < 128 ∧ c ∉ c!"\t\n\r \"\\"

/-- A character that may follow a backslash between quotes: ASCII other than NUL, line feed, carriage
return. -/
def IsQPair (c : Char) : Prop := 0 < c.toNat ∧ c.toNat < 128 ∧ c ∉ c!"\n\r"

/-- The inside of a quoted local part. -/
inductive QuotedBody : Str → Prop
  | nil : QuotedBody []
  | text {c s} : IsQText c → QuotedBody s → QuotedBody (c :: s)
  | pair {c s} : IsQPair c → QuotedBody s → QuotedBody ('\\' :: c :: s)

/-- Dot separated atoms, or a quoted text. -/
def IsLocalPart (s : Str) : Prop :=
  (∃ l : List Str, l ≠ [] ∧ (∀ a ∈ l, a ≠ [] ∧ ∀ c ∈ a, IsAtomChar c) ∧ s = Joined '.' l) ∨
  (∃ b, QuotedBody b ∧ s = '"' :: (b ++ ['"']))

/-- One or more labels, each followed by a dot, then two to six letters. -/
def IsDomain (s : Str) : Prop :=
  ∃ (l : List Str) (tld : Str), l ≠ [] ∧ (∀ a ∈ l, a ≠ [] ∧ ∀ c ∈ a, IsLabelChar c) ∧
    2 ≤ tld.length ∧ tld.length ≤ 6 ∧ (∀ c ∈ tld, IsLetter c) ∧ s = l.flatMap (· ++ ['.']) ++ tld

def IsEmail (s : Str) : Prop := ∃ a b, s = a ++ '@' :: b ∧ IsLocalPart a ∧ IsDomain b

/-- An address, or a display name followed by spaces and an address in angle brackets. -/
def IsExtendedEmail (s : Str) : Prop :=
  IsEmail s ∨ ∃ name sp a, IsEmail a ∧ sp ≠ [] ∧ (∀ c ∈ sp, c = ' ') ∧
    s = name ++ sp ++ '<' :: (a ++ ['>']) ∧
    ((∃ q, q ≠ [] ∧ (∀ c ∈ q, c ≠ '"') ∧ name = '"' :: (q ++ ['"'])) ∨ (name ≠ [] ∧ ∀ c ∈ name, c ≠ '<'))

/-- ASCII whitespace and the separators `,;:`. -/
def IsEmailSep (c : Char) : Bool := (c!" \t\n\r\x0b\x0c,;:").contains c

/-- `t` is `s` with every maximal run of separators replaced by one comma. -/
inductive Collapsed (sep : Char → Prop) : Str → Str → Prop
  | nil : Collapsed sep [] []
  | keep {c s t} : ¬ sep c → Collapsed sep s t → Collapsed sep (c :: s) (c :: t)
  | run {r s t} : r ≠ [] → (∀ c ∈ r, sep c) → (∀ c, s.head? = some c → ¬ sep c) → Collapsed sep s t →
      Collapsed sep (r ++ s) (',' :: t)

/-- Separators of an address list: whitespace and `,;:`. -/
def listSep (u : Chars) (c : Char) : Prop := isSpace u c = true ∨ c = ',' ∨ c = ';' ∨ c = ':'

/-- What an Email field makes of a text before validating it: an extended field nothing; otherwise
the text is trimmed of separators and lower-cased, and in a list every run of separators becomes a
comma. -/
def EmailForm (u : Chars) (multiple extended : Bool) (s t : Str) : Prop :=
  if extended then t = s
  else ∃ r, Stripped IsEmailSep s r ∧
    if multiple then Collapsed (listSep u) (lower u r) t else t = lower u r

/-- What an Email field accepts: nothing at all, or an address (extended address, list of addresses). -/
def EmailText (multiple extended : Bool) (t : Str) : Prop :=
  t = [] ∨ if multiple then ∃ l : List Str, l ≠ [] ∧ (∀ x ∈ l, IsEmail x) ∧ t = Joined ',' l
    else if extended then IsExtendedEmail t else IsEmail t

end Scheme
