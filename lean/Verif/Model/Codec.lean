import Verif.Model.Val

/-!
Text codecs of the standard library used by the leaf fields: `base64`, `decimal`, `time.strptime`,
`strftime`.  They are modelled from the CPython 3.7/3.8 sources (`Modules/binascii.c`,
`Lib/_pydecimal.py`, `Lib/_strptime.py`), because the leaf fields call them directly.
-/

namespace Scheme

/-! ### base64 (scheme/fields/binary.py:44-51) -/

/-- The url-safe alphabet: A-Z a-z 0-9 - _ (as byte values). -/
def b64Char (n : Nat) : Nat :=
  if n < 26 then 65 + n
  else if n < 52 then 97 + (n - 26)
  else if n < 62 then 48 + (n - 52)
  else if n = 62 then 45
  else 95

/-- Decoding table of `binascii.a2b_base64` after `urlsafe_b64decode` translated `-_` to `+/`;
`+` and `/` themselves remain valid. -/
def b64Val (c : Nat) : Option Nat :=
  if 65 ≤ c ∧ c ≤ 90 then some (c - 65)
  else if 97 ≤ c ∧ c ≤ 122 then some (c - 97 + 26)
  else if 48 ≤ c ∧ c ≤ 57 then some (c - 48 + 52)
  else if c = 45 ∨ c = 43 then some 62
  else if c = 95 ∨ c = 47 then some 63
  else none

/-- A natural number as a byte (values used are always below 256). -/
def byteOf (n : Nat) : Byte := ⟨n % 256, Nat.mod_lt _ (by decide)⟩

/-- `base64.urlsafe_b64encode` -/
def b64Encode : List Byte → List Byte
  | [] => []
  | [a] => [byteOf (b64Char (a.val / 4)), byteOf (b64Char (a.val % 4 * 16)), byteOf 61, byteOf 61]
  | [a, b] => [byteOf (b64Char (a.val / 4)), byteOf (b64Char (a.val % 4 * 16 + b.val / 16)),
      byteOf (b64Char (b.val % 16 * 4)), byteOf 61]
  | a :: b :: c :: r =>
      byteOf (b64Char (a.val / 4)) :: byteOf (b64Char (a.val % 4 * 16 + b.val / 16)) ::
      byteOf (b64Char (b.val % 16 * 4 + c.val / 64)) :: byteOf (b64Char (c.val % 64)) :: b64Encode r

/-- The loop of `binascii.a2b_base64` (non-strict): state is the position in the quad, the number of
consecutive pads and the left-over bits; `none` is `binascii.Error`. -/
def b64DecodeLoop : List Byte → (quad pads left : Nat) → Option (List Byte)
  | [], quad, _, _ => if quad = 0 then some [] else none
  | c :: r, quad, pads, left =>
    if c.val = 61 then
      if quad ≥ 2 then
        if quad + (pads + 1) ≥ 4 then some [] else b64DecodeLoop r quad (pads + 1) left
      else b64DecodeLoop r quad pads left
    else match b64Val c.val with
      | none => b64DecodeLoop r quad pads left
      | some v =>
        match quad with
        | 0 => b64DecodeLoop r 1 0 v
        | 1 => (b64DecodeLoop r 2 0 (v % 16)).map (byteOf (left * 4 + v / 16) :: ·)
        | 2 => (b64DecodeLoop r 3 0 (v % 4)).map (byteOf (left * 16 + v / 4) :: ·)
        | _ => (b64DecodeLoop r 0 0 0).map (byteOf (left * 64 + v) :: ·)

/-- `base64.urlsafe_b64decode` -/
def b64Decode (b : List Byte) : Option (List Byte) := b64DecodeLoop b 0 0 0

/-! ### decimal (scheme/fields/decimal.py:75-85) -/

/-- `str(Decimal)`: to-scientific-string. -/
def decStr : Dec → Str
  | .inf neg => (if neg then c!"-" else []) ++ c!"Infinity"
  | .nan => c!"NaN"
  | .fin neg coeff exp =>
    let digits := natStr coeff
    let len : Int := digits.length
    let leftdigits : Int := exp + len
    let dotplace : Int := if exp ≤ 0 ∧ leftdigits > -6 then leftdigits else 1
    let body : Str :=
      if dotplace ≤ 0 then c!"0." ++ List.replicate (-dotplace).toNat '0' ++ digits
      else if dotplace ≥ len then digits ++ List.replicate (dotplace - len).toNat '0'
      else digits.take dotplace.toNat ++ '.' :: digits.drop dotplace.toNat
    let e : Int := leftdigits - dotplace
    let expo : Str :=
      if e = 0 then []
      else if e < 0 then 'E' :: intStr e
      else 'E' :: '+' :: intStr e
    (if neg then c!"-" else []) ++ body ++ expo

/-- Longest run of digits and the rest. -/
def spanDigits (u : Chars) : Str → List Nat × Str
  | [] => ([], [])
  | c :: r =>
    match digitVal u c with
    | some d => let p := spanDigits u r; (d :: p.1, p.2)
    | none => ([], c :: r)

/-- The number spelled by a list of digits. -/
def digitsNat (l : List Nat) : Nat := l.foldl (fun acc d => acc * 10 + d) 0

/-- `\d+` up to the end of the text. -/
def expDigits (u : Chars) (r : Str) : Option Nat :=
  match spanDigits u r with
  | ([], _) => none
  | (ds, []) => some (digitsNat ds)
  | _ => none

/-- Exponent part `[+-]?\d+` up to the end of the text. -/
def parseExp (u : Chars) (s : Str) : Option Int :=
  match s with
  | '-' :: r => (expDigits u r).map fun n => -(n : Int)
  | '+' :: r => (expDigits u r).map fun n => (n : Int)
  | r => (expDigits u r).map fun n => (n : Int)

/-- Special values: inf, infinity, nan with optional payload (payload and signalling dropped). -/
def parseDecSpecial (u : Chars) (neg : Bool) (t : Str) : Option Dec :=
  let l := lower u t
  if l = c!"inf" ∨ l = c!"infinity" then some (.inf neg)
  else
    let l' := if l.head? = some 's' then l.tail else l
    if l'.take 3 = c!"nan" then
      match spanDigits u (l'.drop 3) with
      | (_, []) => some .nan
      | _ => none
    else none

/-- The fraction `(\.\d*)?` and the rest. -/
def decFrac (u : Chars) : Str → List Nat × Str
  | '.' :: r => spanDigits u r
  | r => ([], r)

/-- The optional exponent after digits with `fl` fractional ones. -/
def decTail (u : Chars) (neg : Bool) (coeff fl : Nat) : Str → Option Dec
  | [] => some (.fin neg coeff (-(fl : Int)))
  | c :: r =>
    if c = 'e' ∨ c = 'E' then (parseExp u r).map fun e => .fin neg coeff (e - (fl : Int))
    else none

/-- Unsigned decimal text. -/
def parseDecBody (u : Chars) (neg : Bool) (t : Str) : Option Dec :=
  let p := spanDigits u t
  let q := decFrac u p.2
  if p.1.isEmpty && q.1.isEmpty then parseDecSpecial u neg t
  else decTail u neg (digitsNat (p.1 ++ q.1)) q.1.length q.2

/-- `Decimal(text)`.  Simplification: the exponent limits of the C implementation
(about 10^18) are not represented. -/
def parseDec (u : Chars) (s : Str) : Option Dec :=
  match (strip u s).filter (· ≠ '_') with
  | '-' :: r => parseDecBody u true r
  | '+' :: r => parseDecBody u false r
  | r => parseDecBody u false r

/-! ### dates and times (scheme/fields/date.py:65-75, time.py:61-72, datetime.py:81-94) -/

def isLeap (y : Nat) : Bool := y % 4 = 0 && (y % 100 ≠ 0 || y % 400 = 0)

def daysInMonth (y m : Nat) : Nat :=
  if m = 2 then (if isLeap y then 29 else 28)
  else if m = 4 ∨ m = 6 ∨ m = 9 ∨ m = 11 then 30 else 31

/-- Argument check of `datetime.date(y, m, d)`. -/
def dateOk (d : PDate) : Bool :=
  1 ≤ d.year && d.year ≤ 9999 && 1 ≤ d.month && d.month ≤ 12 &&
  1 ≤ d.day && d.day ≤ daysInMonth d.year d.month

/-- Argument check of `datetime.time(h, m, s)`. -/
def timeOk (t : PTime) : Bool :=
  t.hour < 24 && t.minute < 60 && t.second < 60 && t.micro < 1000000

/-- A backtracking parser: all ways to match a prefix, in `re` priority order. -/
abbrev BT (α : Type) := Str → List (α × Str)

/-- An ASCII digit class `[lo-hi]`. -/
def btRng (lo hi : Nat) : BT Nat
  | [] => []
  | c :: r => if 48 + lo ≤ c.toNat ∧ c.toNat ≤ 48 + hi then [(c.toNat - 48, r)] else []

/-- `\d` -/
def btDigit (u : Chars) : BT Nat
  | [] => []
  | c :: r => match digitVal u c with
    | some d => [(d, r)]
    | none => []

/-- Two consecutive digits read as a number. -/
def btTwo (p q : BT Nat) : BT Nat := fun s =>
  (p s).flatMap fun x => (q x.2).map fun y => (x.1 * 10 + y.1, y.2)

/-- A literal character, ignoring ASCII case (`re.IGNORECASE`). -/
def btLit (c : Char) : BT Unit
  | [] => []
  | x :: r => if x = c ∨ x.toNat = c.toNat + 32 ∧ asciiUpper c then [((), r)] else []

def btYear (u : Chars) : BT Nat := fun s =>
  (btTwo (btDigit u) (btDigit u) s).flatMap fun x =>
    (btTwo (btDigit u) (btDigit u) x.2).map fun y => (x.1 * 100 + y.1, y.2)

/-- `%m`: `1[0-2]|0[1-9]|[1-9]` -/
def btMonth : BT Nat := fun s =>
  btTwo (btRng 1 1) (btRng 0 2) s ++ btTwo (btRng 0 0) (btRng 1 9) s ++ btRng 1 9 s

/-- The alternative ` [1-9]` of `%d` -/
def btSpaced : BT Nat
  | ' ' :: r => btRng 1 9 r
  | _ => []

/-- `%d`: `3[0-1]|[1-2]\d|0[1-9]|[1-9]| [1-9]` -/
def btDay (u : Chars) : BT Nat := fun s =>
  btTwo (btRng 3 3) (btRng 0 1) s ++ btTwo (btRng 1 2) (btDigit u) s ++
  btTwo (btRng 0 0) (btRng 1 9) s ++ btRng 1 9 s ++ btSpaced s

/-- `%H`: `2[0-3]|[0-1]\d|\d` -/
def btHour (u : Chars) : BT Nat := fun s =>
  btTwo (btRng 2 2) (btRng 0 3) s ++ btTwo (btRng 0 1) (btDigit u) s ++ btDigit u s

/-- `%M`: `[0-5]\d|\d` -/
def btMinute (u : Chars) : BT Nat := fun s =>
  btTwo (btRng 0 5) (btDigit u) s ++ btDigit u s

/-- `%S`: `6[0-1]|[0-5]\d|\d` -/
def btSecond (u : Chars) : BT Nat := fun s =>
  btTwo (btRng 6 6) (btRng 0 1) s ++ btTwo (btRng 0 5) (btDigit u) s ++ btDigit u s

/-- `%Y-%m-%d` -/
def btDate (u : Chars) : BT PDate := fun s =>
  (btYear u s).flatMap fun y => (btLit '-' y.2).flatMap fun a =>
  (btMonth a.2).flatMap fun m => (btLit '-' m.2).flatMap fun b =>
  (btDay u b.2).map fun d => (⟨y.1, m.1, d.1⟩, d.2)

/-- `%H:%M:%S` -/
def btTime (u : Chars) : BT PTime := fun s =>
  (btHour u s).flatMap fun h => (btLit ':' h.2).flatMap fun a =>
  (btMinute u a.2).flatMap fun m => (btLit ':' m.2).flatMap fun b =>
  (btSecond u b.2).map fun x => (⟨h.1, m.1, x.1, 0⟩, x.2)

/-- `strptime`: the first match must consume the whole text. -/
def btWhole {α : Type} (p : BT α) (s : Str) : Option α :=
  match p s with
  | (a, []) :: _ => some a
  | _ => none

/-- `date(*strptime(value, '%Y-%m-%d')[:3])`; `none` is any exception. -/
def parseDate (u : Chars) (s : Str) : Option PDate :=
  match btWhole (btDate u) s with
  | some d => if dateOk d then some d else none
  | none => none

/-- `time(*strptime(value, '%H:%M:%S')[3:6])`; `none` is any exception. -/
def parseTime (u : Chars) (s : Str) : Option PTime :=
  match btWhole (btTime u) s with
  | some t => if timeOk t then some t else none
  | none => none

/-- `%Y-%m-%dT%H:%M:%SZ` -/
def btDateTime (u : Chars) : BT PDateTime := fun s =>
  (btDate u s).flatMap fun d => (btLit 'T' d.2).flatMap fun a =>
  (btTime u a.2).flatMap fun t => (btLit 'Z' t.2).map fun b => (⟨d.1, t.1, some .utc⟩, b.2)

/-- `datetime(*strptime(value, pattern)[:6]).replace(tzinfo=UTC)` -/
def parseDateTime (u : Chars) (s : Str) : Option PDateTime :=
  match btWhole (btDateTime u) s with
  | some d => if dateOk d.date && timeOk d.time then some d else none
  | none => none

/-- `strftime('%Y')`: glibc does not pad years below 1000 (`padYear = false`). -/
def yearStr (padYear : Bool) (y : Nat) : Str := if padYear then padNat 4 y else natStr y

/-- `value.strftime('%Y-%m-%d')` -/
def dateStr (padYear : Bool) (d : PDate) : Str :=
  yearStr padYear d.year ++ c!"-" ++ padNat 2 d.month ++ c!"-" ++ padNat 2 d.day

/-- `value.strftime('%H:%M:%S')` -/
def timeStr (t : PTime) : Str :=
  padNat 2 t.hour ++ c!":" ++ padNat 2 t.minute ++ c!":" ++ padNat 2 t.second

/-- `value.strftime('%Y-%m-%dT%H:%M:%SZ')` -/
def dateTimeStr (padYear : Bool) (d : PDateTime) : Str :=
  dateStr padYear d.date ++ c!"T" ++ timeStr d.time ++ c!"Z"

/-- Lexicographic `<` on lists of numbers: the order of `date`, `time` and of datetimes sharing
one `tzinfo`. -/
def lexLt : List Nat → List Nat → Bool
  | _, [] => false
  | [], _ :: _ => true
  | a :: r, b :: s => a < b || (a == b && lexLt r s)

def PDate.key (d : PDate) : List Nat := [d.year, d.month, d.day]
def PTime.key (t : PTime) : List Nat := [t.hour, t.minute, t.second, t.micro]
def PDateTime.key (d : PDateTime) : List Nat := d.date.key ++ d.time.key

/-- `a < b` for floats: anything with NaN is false. -/
def floatLt : PyFloat → PyFloat → Bool
  | .fin a, .fin b => a < b
  | .inf n, .inf m => n && !m
  | .inf n, .fin _ => n
  | .fin _, .inf m => !m
  | _, _ => false

/-- The value of a non-NaN decimal. -/
def decVal : Dec → Option PyFloat
  | .fin n c e => some (.fin (decRat n c e))
  | .inf n => some (.inf n)
  | .nan => none

/-- `a < b` for decimals; `none` is `decimal.InvalidOperation` (raised when a NaN is involved). -/
def decLt (a b : Dec) : Option Bool :=
  match decVal a, decVal b with
  | some x, some y => some (floatLt x y)
  | _, _ => none

end Scheme
