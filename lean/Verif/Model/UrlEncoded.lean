import Verif.Model.StructuredText
import Verif.Model.Codec

/-!
The url-encoded format (scheme/formats/urlencoded.py), with the parts of `urllib.parse` it calls (CPython 3.7/3.8,
`Lib/urllib/parse.py`).
-/

namespace Scheme

/-! ### UTF-8 -/

/-- `c.encode('utf-8')` -/
def utf8Char (c : Char) : List Byte :=
  let n := c.toNat
  if n < 128 then [byteOf n]
  else if n < 2048 then [byteOf (192 + n / 64), byteOf (128 + n % 64)]
  else if n < 65536 then [byteOf (224 + n / 4096), byteOf (128 + n / 64 % 64), byteOf (128 + n % 64)]
  else [byteOf (240 + n / 262144), byteOf (128 + n / 4096 % 64), byteOf (128 + n / 64 % 64), byteOf (128 + n % 64)]

/-- `s.encode('utf-8')`.  Simplification: Lean characters exclude lone surrogates, which CPython refuses to encode. -/
def utf8Enc (s : Str) : List Byte := s.flatMap utf8Char

/-- A continuation byte. -/
def isCont (b : Byte) : Bool := 128 ≤ b.val && b.val < 192

/-- The character of a number, if it is one in the given range. -/
def charIn (lo hi n : Nat) : Option Char := if lo ≤ n ∧ n < hi ∧ n.isValidChar then some (Char.ofNat n) else none

/-- `b.decode('utf-8', 'replace')`.  Simplification: in an ill-formed sequence every byte gives one replacement
character (CPython gives one for every maximal ill-formed part). -/
def utf8Dec : List Byte → Str
  | [] => []
  | [a] => [if a.val < 128 then Char.ofNat a.val else Char.ofNat 65533]
  | a :: b :: r =>
    if a.val < 128 then Char.ofNat a.val :: utf8Dec (b :: r)
    else
      match (if 192 ≤ a.val && a.val < 224 && isCont b then charIn 128 2048 ((a.val - 192) * 64 + (b.val - 128)) else none) with
      | some x => x :: utf8Dec r
      | none =>
        match r with
        | [] => Char.ofNat 65533 :: utf8Dec [b]
        | c :: r' =>
          match (if 224 ≤ a.val && a.val < 240 && isCont b && isCont c then
            charIn 2048 65536 ((a.val - 224) * 4096 + (b.val - 128) * 64 + (c.val - 128)) else none) with
          | some x => x :: utf8Dec r'
          | none =>
            match r' with
            | [] => Char.ofNat 65533 :: utf8Dec [b, c]
            | d :: r'' =>
              match (if 240 ≤ a.val && isCont b && isCont c && isCont d then
                charIn 65536 1114112 ((a.val - 240) * 262144 + (b.val - 128) * 4096 + (c.val - 128) * 64 + (d.val - 128))
                else none) with
              | some x => x :: utf8Dec r''
              | none => Char.ofNat 65533 :: utf8Dec (b :: c :: d :: r'')

/-! ### Percent encoding -/

/-- `'0123456789ABCDEF'[n]` -/
def hexUpper (n : Nat) : Char := if n < 10 then Char.ofNat (48 + n) else Char.ofNat (55 + n)

/-- The value of a hexadecimal digit. -/
def hexVal (c : Char) : Option Nat :=
  if asciiDigit c then some (c.toNat - 48)
  else if 65 ≤ c.toNat && c.toNat ≤ 70 then some (c.toNat - 55)
  else if 97 ≤ c.toNat && c.toNat ≤ 102 then some (c.toNat - 87)
  else none

/-- `_ALWAYS_SAFE`: letters, digits and `_.-~`. -/
def urlSafe (n : Nat) : Bool :=
  (65 ≤ n && n ≤ 90) || (97 ≤ n && n ≤ 122) || (48 ≤ n && n ≤ 57) || n == 95 || n == 46 || n == 45 || n == 126

/-- One byte of `quote_plus`: blanks become `+`. -/
def quoteByte (b : Byte) : Str :=
  if b.val = 32 then ['+']
  else if urlSafe b.val then [Char.ofNat b.val]
  else ['%', hexUpper (b.val / 16), hexUpper (b.val % 16)]

/-- `quote_plus(s)` -/
def quotePlus (s : Str) : Str := (utf8Enc s).flatMap quoteByte

/-- `unquote(s)` for a text with a percent sign: runs of ASCII characters are turned into bytes and decoded, others
are kept.  The first argument holds the bytes of the current run. -/
def unquoteRuns : List Byte → Str → Str
  | acc, [] => utf8Dec acc
  | acc, '%' :: a :: b :: r =>
    match hexVal a, hexVal b with
    | some x, some y => unquoteRuns (acc ++ [byteOf (x * 16 + y)]) r
    | _, _ => unquoteRuns (acc ++ [byteOf 37]) (a :: b :: r)
  | acc, c :: r =>
    if isAscii c then unquoteRuns (acc ++ [byteOf c.toNat]) r else utf8Dec acc ++ c :: unquoteRuns [] r

/-- `unquote(s)` -/
def unquote (s : Str) : Str := if s.contains '%' then unquoteRuns [] s else s

/-- `s.replace('+', ' ')` -/
def plusToBlank (s : Str) : Str := s.map fun c => if c = '+' then ' ' else c

/-- `s.split('=', 1)` when there is an equals sign. -/
def splitEq : Str → Option (Str × Str)
  | [] => none
  | c :: r => if c = '=' then some ([], r) else (splitEq r).map fun p => (c :: p.1, p.2)

/-- `parse_qsl(s)`: parts are separated by `&` or `;`; parts without an equals sign or without a value are left out. -/
def parseQsl (s : Str) : List (Str × Str) :=
  (((splitOn '&' s).flatMap (splitOn ';')).filterMap splitEq).filterMap fun p =>
    if p.2.isEmpty then none else some (unquote (plusToBlank p.1), unquote (plusToBlank p.2))

/-- `urlencode(data)` for a list of pairs of texts. -/
def urlencode (data : List (Str × Str)) : Str :=
  joinStr c!"&" (data.map fun p => quotePlus p.1 ++ '=' :: quotePlus p.2)

/-- `str(k)` -/
def keyStr (env : Env) : Val → Str
  | .str s => s
  | v => env.str v

/-- The loop of UrlEncoded.serialize (urlencoded.py:26-27). -/
def urlData (env : Env) : List (Val × Val) → Option (List (Str × Str))
  | [] => some []
  | (k, v) :: r => do
    let t ← stContent env.str v
    let ts ← urlData env r
    some ((keyStr env k, t) :: ts)

/-- UrlEncoded.serialize (urlencoded.py:21-29).  `none`: a nested dict with keys that are no texts, which is not
represented. -/
def urlSerialize (env : Env) : Val → Option (Except Exn Str)
  | .dict d => (urlData env d).map fun data => .ok (urlencode data)
  | _ => some (.error (.py .valueError))

/-- The loop of UrlEncoded.unserialize (urlencoded.py:37-42). -/
def urlLoop (env : Env) : List (Val × Val) → List (Str × Str) → Except Exn (List (Val × Val))
  | data, [] => .ok data
  | data, (name, value) :: r => do
    let v ← stUnserialize env false (.str value)
    urlLoop env (dictSet data (.str name) v) r

/-- UrlEncoded.unserialize (urlencoded.py:32-44); the choice between structured and simple values
(urlencoded.py:38-41) is that of StructuredText.unserialize. -/
def urlUnserialize (env : Env) : Val → Except Exn Val
  | .str s => (urlLoop env [] (parseQsl s)).map .dict
  | _ => .error (.py .valueError)

end Scheme
