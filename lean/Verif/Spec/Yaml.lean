import Verif.Spec.Instantiate
import Verif.Spec.DateText
import Verif.Model.Codec

/-! A reader for a part of YAML, and the values it can read back.  Wherever the reader gives a result, PyYAML's `load`
gives the same one; `none` is everything the reader does not decide. -/

namespace Scheme.Yaml

/-- Characters of a document.  Carriage returns and other line separators are left out. -/
def okChar (c : Char) : Bool :=
  c == '\n' || c == '\t' || (decide (32 ≤ c.toNat) && decide (c.toNat ≤ 126)) ||
    (decide (160 ≤ c.toNat) && !([0x2028, 0x2029, 0xfeff, 0xfffe, 0xffff].contains c.toNat))

def isBlank (s : Str) : Bool := s.all (· == ' ')

def indent (s : Str) : Nat := (s.takeWhile (· == ' ')).length

/-- A line that belongs to what begins on an earlier line at column `col`. -/
def deeper (col : Nat) (s : Str) : Bool := isBlank s || decide (col < indent s)

/-- The lines before the first one that is not deeper, and each of those with the deeper lines after it. -/
def chunks (col : Nat) : List Str → List Str × List (Str × List Str)
  | [] => ([], [])
  | l :: r =>
    if deeper col l then (l :: (chunks col r).1, (chunks col r).2)
    else ([], (l, (chunks col r).1) :: (chunks col r).2)

def trim (s : Str) : Str := ((s.dropWhile (· == ' ')).reverse.dropWhile (· == ' ')).reverse

def asciiOnly : Chars where
  uspace _ := false
  uword _ := false
  udigit _ := none
  ulower c := [c]

/-- The characters of YAML's numbers and timestamps. -/
def numberChars : Str := c!"0123456789_.+-:abcdefABCDEFxinNItTZ \t"

/-- What Python's `float` makes of a text. -/
class Floats where
  ofText : Str → PyFloat

def isDig (c : Char) : Bool := (c!"0123456789").contains c

def unsigned : Str → Str
  | '-' :: r => r
  | '+' :: r => r
  | r => r

/-- An exponent with a sign. -/
def exponent : Str → Bool
  | e :: g :: r => (e == 'e' || e == 'E') && (g == '+' || g == '-') && !r.isEmpty && r.all isDig
  | _ => false

/-- Digits, a point, digits, and an exponent with a sign or none: a float to YAML.  (There are others.) -/
def floatText (s : Str) : Bool :=
  !((unsigned s).takeWhile isDig).isEmpty &&
    match (unsigned s).dropWhile isDig with
    | '.' :: t => (t.dropWhile isDig).isEmpty || exponent (t.dropWhile isDig)
    | _ => false

/-- Digits and an exponent but no point, and signed words: numbers to Python, but not to YAML. -/
def pointless (s : Str) : Bool :=
  (!((unsigned s).takeWhile isDig).isEmpty && exponent ((unsigned s).dropWhile isDig)) ||
    [c!"inf", c!"nan"].contains (unsigned s)

variable [Floats]

/-- The value of a plain scalar. -/
def resolvePlain (s : Str) : Option Val :=
  if [c!"", c!"~", c!"null", c!"Null", c!"NULL"].contains s then some .none
  else if [c!"true", c!"True", c!"TRUE", c!"yes", c!"Yes", c!"YES", c!"on", c!"On", c!"ON"].contains s then some (.bool true)
  else if [c!"false", c!"False", c!"FALSE", c!"no", c!"No", c!"NO", c!"off", c!"Off", c!"OFF"].contains s then some (.bool false)
  else if [c!"<<", c!"="].contains s then none
  else match s with
    | [] => none
    | c :: _ =>
      if (c!"-+.0123456789").contains c && s.all numberChars.contains then
        if floatText s then some (.float (Floats.ofText s))
        else if pointless s then some (.str s)
        else match parseInt asciiOnly s with
        | some i => if intStr i = s then some (.int i) else none
        | none => match parseDate asciiOnly s with
          | some d => if isoDate d = s then some (.date d) else none
          | none => none
      else some (.str s)

/-- The indicators a plain scalar cannot begin with, whatever follows. -/
def indicators : Str := c!",[]{}#&*!|>'\"%@`"

def pairIn (a b : Char) : Str → Bool
  | x :: y :: r => (x == a && y == b) || pairIn a b (y :: r)
  | _ => false

/-- A plain scalar on one line. -/
def plain (s : Str) : Option Val :=
  match s with
  | [] => none
  | c :: r =>
    if indicators.contains c || ((c!"-?:").contains c && (r.isEmpty || r.head? == some ' ')) || s.contains '\t' ||
        pairIn ':' ' ' s || pairIn ' ' '#' s || s.getLast? == some ':' then none
    else resolvePlain s

/-- What follows the opening quote. -/
def quoted : Str → Option Str
  | '\'' :: '\'' :: r => (quoted r).map ('\'' :: ·)
  | '\'' :: r => if isBlank r then some [] else none
  | c :: r => (quoted r).map (c :: ·)
  | [] => none

def mapAll {α β : Type} (f : α → Option β) : List α → Option (List β)
  | [] => some []
  | a :: r => (f a).bind fun b => (mapAll f r).map (b :: ·)

/-- A plain scalar inside brackets. -/
def flowItem (s : Str) : Option Val :=
  if (trim s).any ((c!",[]{}'\"#&*!|>%@`:?").contains) then none else plain (trim s)

/-- What follows an opening bracket. -/
def flow (s : Str) : Option Val :=
  if s.getLast? = some ']' then
    if isBlank s.dropLast then some (.list [])
    else (mapAll flowItem (splitOn ',' s.dropLast)).map .list
  else none

def dropBlankEnd (l : List Str) : List Str := (l.reverse.dropWhile (·.isEmpty)).reverse

/-- A line of a literal scalar whose lines are indented by `ind`. -/
def literalLine (ind : Nat) (l : Str) : Option Str :=
  if isBlank l || decide (ind ≤ indent l) then some (l.drop ind) else none

/-- The lines after `|`; `more` says whether further lines follow. -/
def literal (more : Bool) (g : List Str) : Option Str :=
  match g.dropWhile isBlank with
  | [] => none
  | l :: _ =>
    if indent l = 0 || (g.takeWhile isBlank).any (fun b => decide (indent l < b.length)) then none
    else (mapAll (literalLine (indent l)) g).map fun ls =>
      joinStr c!"\n" (dropBlankEnd ls) ++ (if more || dropBlankEnd ls != ls then c!"\n" else [])

/-- A scalar, an empty mapping or a sequence in brackets, with the lines that belong to it. -/
def scalar (more : Bool) (s : Str) (g : List Str) : Option Val :=
  match trim s with
  | ['|'] => (literal more g).map .str
  | '\'' :: r => if g.isEmpty then (quoted r).map .str else none
  | '[' :: r => if g.isEmpty then flow r else none
  | ['{', '}'] => if g.isEmpty then some (.dict []) else none
  | t => if g.isEmpty then plain t else none

/-- The key and the rest, from the first colon that ends a key. -/
def keyEnd : Str → Option (Str × Str)
  | [] => none
  | [':'] => some ([], [])
  | c :: ' ' :: r => if c = ':' then some ([], ' ' :: r) else (keyEnd (' ' :: r)).map fun p => (c :: p.1, p.2)
  | c :: r => (keyEnd r).map fun p => (c :: p.1, p.2)

/-- The plain key a line begins with. -/
def keySplit (s : Str) : Option (Str × Str) :=
  match s with
  | [] => none
  | c :: _ => if indicators.contains c || (c!"-?:").contains c then none else keyEnd s

/-- The content of a line indented by `col`. -/
def unindent (col : Nat) (l : Str) : Option Str := if indent l = col then some (l.drop col) else none

abbrev Reader := Bool → Nat → Str → List Str → Option Val

def items (rec : Reader) (more : Bool) (col : Nat) : List (Str × List Str) → Option (List Val)
  | [] => some []
  | (s, g) :: r =>
    match s with
    | '-' :: ' ' :: c :: t =>
      if c = ' ' then none
      else (rec (more || !r.isEmpty) (col + 2) (c :: t) g).bind fun v => (items rec more col r).map (v :: ·)
    | _ => none

/-- The value of a key. -/
def entryValue (rec : Reader) (more : Bool) (rest : Str) (g : List Str) : Option Val :=
  match rest, g with
  | [], [] => some .none
  | [], l :: g => if isBlank l then none else rec more (indent l) (l.drop (indent l)) g
  | t, g => scalar more t g

def entries (rec : Reader) (more : Bool) : List (Str × List Str) → Option (List (Val × Val))
  | [] => some []
  | (s, g) :: r =>
    match keySplit s with
    | none => none
    | some (k, rest) =>
      if 1024 < k.length || k.contains '\t' || pairIn ' ' '#' k || k.getLast? == some ' ' then none
      else (resolvePlain k).bind fun key =>
        (entryValue rec (more || !r.isEmpty) rest g).bind fun v => (entries rec more r).map ((key, v) :: ·)

/-- A later entry replaces an earlier one with the same key. -/
def dictOf (l : List (Val × Val)) : List (Val × Val) := l.foldl (fun d e => dictSet d e.1 e.2) []

/-- The node that begins with `s` at column `col` and goes on in the lines `rest`; `more` says whether further lines
follow those. -/
def node : Nat → Reader
  | 0, _, _, _, _ => none
  | n + 1, more, col, s, rest =>
    match s with
    | '-' :: ' ' :: _ =>
      (mapAll (fun e => (unindent col e.1).map fun c => (c, e.2)) (chunks col rest).2).bind fun cs =>
        (items (node n) more col ((s, (chunks col rest).1) :: cs)).map .list
    | _ =>
      if (keySplit s).isSome then
        (mapAll (fun e => (unindent col e.1).map fun c => (c, e.2)) (chunks col rest).2).bind fun cs =>
          (entries (node n) more ((s, (chunks col rest).1) :: cs)).map fun l => .dict (dictOf l)
      else scalar more s rest

/-- Reading a document, with `n` levels of nesting. -/
def read (n : Nat) (text : Str) : Option Val :=
  if text.all okChar then
    match splitOn '\n' text with
    | [] => none
    | l :: r => if isBlank l then none else node n false (indent l) (l.drop (indent l)) r
  else none

/-! ### values -/

/-- One line of text. -/
def OneLine (s : Str) : Prop := '\n' ∉ s ∧ ∀ c ∈ s, okChar c = true

/-- Text that YAML reads as something else, or not at all, unless it is quoted: the empty text, the words for null, true
and false, texts beginning with an indicator, containing a colon and a space, or a space and a hash. -/
def Special (u : Chars) (s : Str) : Prop :=
  s = [] ∨ (s.length ≤ 5 ∧ lower u s ∈ [c!"null", c!"~", c!"true", c!"false"]) ∨ (∃ c r, s = c :: r ∧ c ∈ c!"-?:,[]{}#&*!|>'\"%@`") ∨
    (∃ a b, s = a ++ c!": " ++ b) ∨ ∃ a b, s = a ++ c!" #" ++ b

/-- Text that can stand for itself: no space, tab or colon at its ends, no tab, and not the text of another value. -/
def Plain (s : Str) : Prop :=
  '\t' ∉ s ∧ s.head? ≠ some ' ' ∧ s.getLast? ≠ some ' ' ∧ s.getLast? ≠ some ':' ∧ resolvePlain s = some (.str s)

/-- Text of several lines that a literal scalar keeps: it ends with one newline, and its first line that is not empty
does not begin with a space. -/
def Literal (s : Str) : Prop :=
  ∃ ls last, s = joinStr c!"\n" (ls ++ [last, []]) ∧ last ≠ [] ∧ (∀ l ∈ ls ++ [last], OneLine l) ∧
    ∀ l, (ls ++ [last]).find? (fun l => !l.isEmpty) = some l → l.head? ≠ some ' '

/-- Text at a level of nesting. -/
def Text (u : Chars) (level : Nat) (s : Str) : Prop :=
  (OneLine s ∧ s.length + 2 * level ≤ 100 ∧ (Special u s ∨ Plain s)) ∨ (1 ≤ level ∧ Literal s)

/-- A key that can stand for itself, not beginning with any white space. -/
def Key (u : Chars) (s : Str) : Prop :=
  OneLine s ∧ s.length ≤ 1024 ∧ ¬ Special u s ∧ Plain s ∧ ∀ c, s.head? = some c → isSpace u c = false

/-- Values YAML carries: None, booleans, integers, floats written with a point and read back as themselves, dates with a year
of four digits, texts, lists and dicts of such. -/
inductive Carries (env : Env) : Nat → Val → Prop
  | none {level} : Carries env level .none
  | bool {level} (b) : Carries env level (.bool b)
  | int {level} (i) : Carries env level (.int i)
  | float {level x} : floatText (env.str (.float x)) = true → Floats.ofText (env.str (.float x)) = x → Carries env level (.float x)
  | date {level d} : CalendarDate d → (env.padYear = true ∨ 1000 ≤ d.year) → Carries env level (.date d)
  | text {level s} : Text env.u level s → Carries env level (.str s)
  | list {level l} : (∀ v ∈ l, Carries env (level + 1) v) → Carries env level (.list l)
  | dict {level d} : (d.map (·.1)).Nodup → (∀ e ∈ d, ∃ k, e.1 = .str k ∧ Key env.u k) →
      (∀ e ∈ d, Carries env (level + 1) e.2) → Carries env level (.dict d)

/-- A value, or a value inside it. -/
inductive Inside (x : Val) : Val → Prop
  | here : Inside x x
  | list {v l} : v ∈ l → Inside x v → Inside x (.list l)
  | tuple {v l} : v ∈ l → Inside x v → Inside x (.tuple l)
  | dict {e d} : e ∈ d → Inside x e.2 → Inside x (.dict d)

/-- Values of types that have no YAML text. -/
def NoText : Val → Prop
  | .bytes _ | .time _ | .decimal _ | .obj _ | .exc .. | .field _ => True
  | _ => False

end Scheme.Yaml
