import Verif.Model.Str

/-!
Anchored regular expressions.  `re.match` of a pattern that is anchored at both ends accepts a text
iff the text is in the language of the pattern (backtracking is exhaustive), so acceptance is
modelled with Brzozowski derivatives.
-/

namespace Scheme

inductive Re
  | empty
  | eps
  | cls (p : Char → Bool)
  | seq (a b : Re)
  | alt (a b : Re)
  | star (a : Re)

namespace Re

/-- Whether the empty text is in the language. -/
def nullable : Re → Bool
  | .empty => false
  | .eps => true
  | .cls _ => false
  | .seq a b => a.nullable && b.nullable
  | .alt a b => a.nullable || b.nullable
  | .star _ => true

/-- The derivative with respect to a character. -/
def deriv (c : Char) : Re → Re
  | .empty => .empty
  | .eps => .empty
  | .cls p => if p c then .eps else .empty
  | .seq a b => if a.nullable then .alt (.seq (a.deriv c) b) (b.deriv c) else .seq (a.deriv c) b
  | .alt a b => .alt (a.deriv c) (b.deriv c)
  | .star a => .seq (a.deriv c) (.star a)

/-- Acceptance of a whole text. -/
def accepts (r : Re) : Str → Bool
  | [] => r.nullable
  | c :: s => (r.deriv c).accepts s

/-- `^r$` with `re.match`: `$` also matches just before a trailing newline. -/
def matchDollar (r : Re) (s : Str) : Bool :=
  r.accepts s || (s.getLast? = some '\n' && r.accepts s.dropLast)

def chr (c : Char) : Re := .cls (· == c)
def opt (r : Re) : Re := .alt r .eps
def plus (r : Re) : Re := .seq r (.star r)
/-- `r{n}` -/
def rep (r : Re) : Nat → Re
  | 0 => .eps
  | n + 1 => .seq r (rep r n)
/-- `r{n,n+k}` -/
def repTo (r : Re) (n : Nat) : Nat → Re
  | 0 => rep r n
  | k + 1 => .alt (repTo r n k) (rep r (n + k + 1))

end Re

/-! ### Patterns of the library -/

/-- `[-+.\w]` -/
def tokenChar (u : Chars) (c : Char) : Bool := isWord u c || c == '-' || c == '+' || c == '.'

/-- `\w[-+.\w]*(?<=\w)`: the look-behind says that the last character is a word character, so the
segment is a word character optionally followed by any segment text ending in a word character. -/
def tokenSegment (u : Chars) : Re :=
  .seq (.cls (isWord u)) (.opt (.seq (.star (.cls (tokenChar u))) (.cls (isWord u))))

/-- scheme/fields/token.py:14, without the anchors. -/
def tokenRe (u : Chars) : Re :=
  .seq (tokenSegment u) (.star (.seq (.chr ':') (tokenSegment u)))

/-- `[a-f0-9]` -/
def hexChar (c : Char) : Bool := asciiDigit c || (97 ≤ c.toNat && c.toNat ≤ 102)

/-- scheme/fields/uuid.py:14, without the anchors. -/
def uuidRe : Re :=
  .seq (.rep (.cls hexChar) 8) <| .seq (.chr '-') <| .seq (.rep (.cls hexChar) 4) <| .seq (.chr '-') <|
  .seq (.rep (.cls hexChar) 4) <| .seq (.chr '-') <| .seq (.rep (.cls hexChar) 4) <| .seq (.chr '-') <|
  .rep (.cls hexChar) 12

/-- ``[-!#$%&'*+/=?^_`{}|~0-9a-zA-Z]`` (scheme/fields/email.py:11) -/
def atomChar (c : Char) : Bool :=
  asciiAlpha c || asciiDigit c || (c!"-!#$%&'*+/=?^_`{}|~").contains c

/-- `[\001-\010\013\014\016-\037!#-\[\]-\177]` (scheme/fields/email.py:12) -/
def qtextChar (c : Char) : Bool :=
  let n := c.toNat
  (1 ≤ n && n ≤ 8) || n == 11 || n == 12 || (14 ≤ n && n ≤ 31) || n == 33 ||
  (35 ≤ n && n ≤ 91) || (93 ≤ n && n ≤ 127)

/-- `[\001-\011\013\014\016-\177]` (scheme/fields/email.py:12) -/
def qpairChar (c : Char) : Bool :=
  let n := c.toNat
  (1 ≤ n && n ≤ 9) || n == 11 || n == 12 || (14 ≤ n && n ≤ 127)

def domainChar (c : Char) : Bool := asciiAlpha c || asciiDigit c || c == '-'

/-- EMAIL_EXPR (scheme/fields/email.py:10-13) -/
def emailRe : Re :=
  .seq
    (.alt
      (.seq (.plus (.cls atomChar)) (.star (.seq (.chr '.') (.plus (.cls atomChar)))))
      (.seq (.chr '"') (.seq
        (.star (.alt (.cls qtextChar) (.seq (.chr '\\') (.cls qpairChar))))
        (.chr '"'))))
    (.seq (.chr '@')
      (.seq (.plus (.seq (.plus (.cls domainChar)) (.chr '.')))
        (.repTo (.cls asciiAlpha) 2 4)))

/-- EMAIL_ADDRESS_EXPR (email.py:15), without the anchors. -/
def emailAddressRe : Re := .opt emailRe

/-- EXTENDED_EMAIL_ADDRESS_EXPR (email.py:16-17), without the anchors. -/
def extendedEmailRe : Re :=
  let angle : Re := .seq (.plus (.chr ' ')) (.seq (.chr '<') (.seq emailRe (.chr '>')))
  .opt (.alt (.seq (.chr '"') (.seq (.plus (.cls (· != '"'))) (.seq (.chr '"') angle)))
    (.alt (.seq (.plus (.cls (· != '<'))) angle) emailRe))

/-- EMAIL_LIST_EXPR (email.py:18), without the anchors. -/
def emailListRe : Re := .opt (.seq emailRe (.star (.seq (.chr ',') emailRe)))

end Scheme
