import Lean.Elab.Term

/-!
Python strings as lists of code points, together with the parts of `str`, `int` and `re` character
classes used by the library.  ASCII behaviour is concrete; behaviour on non-ASCII code points is a
parameter (`Chars`), because it is given by CPython's unicode database, not by this repository.
-/

namespace Scheme

/-- A Python `str`. -/
abbrev Str := List Char

open Lean in
/-- `c!"abc"` is the explicit list of characters `['a', 'b', 'c']`. -/
macro:max "c!" s:str : term => do
  let elems := s.getString.toList.toArray.map fun c => Syntax.mkCharLit c
  `(([$elems,*] : List Char))

/-- The unicode database: behaviour of `str` methods and of `re` classes on non-ASCII characters
(CPython data, not part of /repo). -/
structure Chars where
  /-- `str.isspace` for non-ASCII characters (also `\s`) -/
  uspace : Char → Bool
  /-- `\w` for non-ASCII characters -/
  uword : Char → Bool
  /-- decimal digit value for non-ASCII characters (also `\d`) -/
  udigit : Char → Option (Fin 10)
  /-- `str.lower` for non-ASCII characters -/
  ulower : Char → Str

def isAscii (c : Char) : Bool := c.toNat < 128

/-- ASCII part of `str.isspace`: \t \n \v \f \r, 0x1c-0x1f and space. -/
def asciiSpace (c : Char) : Bool :=
  (9 ≤ c.toNat && c.toNat ≤ 13) || (28 ≤ c.toNat && c.toNat ≤ 32)

/-- `c.isspace()`; also the class `\s` of a unicode pattern. -/
def isSpace (u : Chars) (c : Char) : Bool := if isAscii c then asciiSpace c else u.uspace c

def asciiDigit (c : Char) : Bool := 48 ≤ c.toNat && c.toNat ≤ 57
def asciiUpper (c : Char) : Bool := 65 ≤ c.toNat && c.toNat ≤ 90
def asciiLower (c : Char) : Bool := 97 ≤ c.toNat && c.toNat ≤ 122
def asciiAlpha (c : Char) : Bool := asciiUpper c || asciiLower c

/-- The class `\w` of a unicode pattern. -/
def isWord (u : Chars) (c : Char) : Bool :=
  if isAscii c then asciiAlpha c || asciiDigit c || c == '_' else u.uword c

/-- The value of a decimal digit as understood by `int()` and `\d`. -/
def digitVal (u : Chars) (c : Char) : Option Nat :=
  if isAscii c then (if asciiDigit c then some (c.toNat - 48) else none)
  else (u.udigit c).map (·.val)

/-- One character of `str.lower()`.  Simplification: context dependent lower-casing (final sigma)
is not represented. -/
def lowerChar (u : Chars) (c : Char) : Str :=
  if isAscii c then (if asciiUpper c then [Char.ofNat (c.toNat + 32)] else [c]) else u.ulower c

/-- `s.lower()` -/
def lower (u : Chars) (s : Str) : Str := s.flatMap (lowerChar u)

/-- `s.lstrip()` for an arbitrary character set. -/
def lstripBy (p : Char → Bool) (s : Str) : Str := s.dropWhile p

/-- `s.strip()` for an arbitrary character set. -/
def stripBy (p : Char → Bool) (s : Str) : Str := ((s.dropWhile p).reverse.dropWhile p).reverse

/-- `s.strip()` -/
def strip (u : Chars) (s : Str) : Str := stripBy (isSpace u) s

/-- The ASCII digit for a number below ten. -/
def digitChar (n : Nat) : Char := Char.ofNat (48 + n)

/-- Decimal digits of `n`; the first argument is recursion fuel, `n + 1` suffices. -/
def natStrF : Nat → Nat → Str
  | 0, _ => []
  | f + 1, n => if n < 10 then [digitChar n] else natStrF f (n / 10) ++ [digitChar (n % 10)]

/-- `str(n)` / `'%d' % n` for a non-negative integer. -/
def natStr (n : Nat) : Str := natStrF (n + 1) n

/-- `str(i)` / `'%d' % i`. -/
def intStr : Int → Str
  | .ofNat n => natStr n
  | .negSucc n => '-' :: natStr (n + 1)

/-- `'%0wd' % n` for non-negative `n`. -/
def padNat (w n : Nat) : Str :=
  let s := natStr n
  List.replicate (w - s.length) '0' ++ s

/-- `s.split(sep)` for a one-character separator. -/
def splitOn (sep : Char) : Str → List Str
  | [] => [[]]
  | c :: r =>
    if c = sep then [] :: splitOn sep r
    else match splitOn sep r with
      | [] => [[c]]
      | h :: t => (c :: h) :: t

/-- `sep.join(parts)` -/
def joinStr (sep : Str) : List Str → Str
  | [] => []
  | [s] => s
  | s :: t => s ++ sep ++ joinStr sep t

/-- Digits of `int(text)` after the first digit: digits with single underscores between them
(CPython `PyLong_FromUnicodeObject`). -/
def parseDigitsAux (u : Chars) : Str → Nat → Option Nat
  | [], acc => some acc
  | c :: r, acc =>
    match digitVal u c with
    | some d => parseDigitsAux u r (acc * 10 + d)
    | none =>
      if c = '_' then
        match r with
        | [] => none
        | c' :: r' =>
          match digitVal u c' with
          | some d => parseDigitsAux u r' (acc * 10 + d)
          | none => none
      else none

/-- Digits of `int(text)`. -/
def parseDigits (u : Chars) : Str → Option Nat
  | [] => none
  | c :: r =>
    match digitVal u c with
    | some d => parseDigitsAux u r d
    | none => none

/-- `int(text)`, base ten: surrounding whitespace, optional sign, digits. -/
def parseInt (u : Chars) (s : Str) : Option Int :=
  match strip u s with
  | '-' :: r => (parseDigits u r).map fun n => -(n : Int)
  | '+' :: r => (parseDigits u r).map fun n => (n : Int)
  | r => (parseDigits u r).map fun n => (n : Int)

end Scheme
