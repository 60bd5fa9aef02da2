import Verif.Model.UrlEncoded
import Verif.Model.Xml

/-!
The JSON format (scheme/formats/json.py), with the parts of CPython's `json` it calls: `json.dumps` and `json.loads` with
their default arguments (CPython 3.7/3.8, `Lib/json` and `Modules/_json.c`).
-/

namespace Scheme

/-! ### Writing -/

/-- `'0123456789abcdef'[n]` -/
def hexLower (n : Nat) : Char := if n < 10 then Char.ofNat (48 + n) else Char.ofNat (87 + n)

/-- `'\\u{0:04x}'.format(n)` -/
def jsonHex (n : Nat) : Str :=
  ['\\', 'u', hexLower (n / 4096 % 16), hexLower (n / 256 % 16), hexLower (n / 16 % 16), hexLower (n % 16)]

/-- One character (`ascii_escape_unichar`): everything but printable ASCII is escaped, characters beyond the basic plane
as two surrogates. -/
def jsonChar (c : Char) : Str :=
  if c = '\\' then c!"\\\\"
  else if c = '"' then c!"\\\""
  else if c = '\n' then c!"\\n"
  else if c = '\r' then c!"\\r"
  else if c = '\t' then c!"\\t"
  else if c = Char.ofNat 8 then c!"\\b"
  else if c = Char.ofNat 12 then c!"\\f"
  else if 32 ≤ c.toNat ∧ c.toNat ≤ 126 then [c]
  else if c.toNat < 65536 then jsonHex c.toNat
  else jsonHex (0xd800 + (c.toNat - 65536) / 1024) ++ jsonHex (0xdc00 + (c.toNat - 65536) % 1024)

/-- A text between quotation marks (`py_encode_basestring_ascii`). -/
def jsonQuote (s : Str) : Str := '"' :: (s.flatMap jsonChar ++ ['"'])

/-- A float (`encoder_encode_float`; `allow_nan` is True). -/
def jsonFloat (env : Env) : PyFloat → Str
  | .fin q => env.repr (.float (.fin q))
  | .inf neg => if neg then c!"-Infinity" else c!"Infinity"
  | .nan => c!"NaN"

/-- The text of a key (`encoder_listencode_dict`): TypeError unless it is a text, a number, a boolean or None. -/
def jsonKey (env : Env) : Val → Except Exn Str
  | .str s => .ok s
  | .float x => .ok (jsonFloat env x)
  | .bool b => .ok (if b then c!"true" else c!"false")
  | .none => .ok c!"null"
  | .int i => .ok (intStr i)
  | _ => .error (.py .typeError)

mutual
/-- `encoder_listencode_obj` with the separators `, ` and `: `.  Simplifications: values are trees, so that the check for
circular references finds nothing; surrogates, which are dicts, are not represented (`other 2`); the recursion limit is
not represented. -/
def jsonText (env : Env) : Val → Except Exn Str
  | .none => .ok c!"null"
  | .bool b => .ok (if b then c!"true" else c!"false")
  | .str s => .ok (jsonQuote s)
  | .int i => .ok (intStr i)
  | .float x => .ok (jsonFloat env x)
  | .list l => (jsonTextL env l).map fun ts => '[' :: (joinStr c!", " ts ++ [']'])
  | .tuple l => (jsonTextL env l).map fun ts => '[' :: (joinStr c!", " ts ++ [']'])
  | .dict d => (jsonTextD env d).map fun ts => '{' :: (joinStr c!", " ts ++ ['}'])
  | .surr _ => .error (.py (.other 2))
  | _ => .error (.py .typeError)
/-- `encoder_listencode_list` -/
def jsonTextL (env : Env) : List Val → Except Exn (List Str)
  | [] => .ok []
  | v :: r => do
    let t ← jsonText env v
    let ts ← jsonTextL env r
    return t :: ts
/-- `encoder_listencode_dict` -/
def jsonTextD (env : Env) : List (Val × Val) → Except Exn (List Str)
  | [] => .ok []
  | (k, v) :: r => do
    let s ← jsonKey env k
    let t ← jsonText env v
    let ts ← jsonTextD env r
    return (jsonQuote s ++ (c!": " ++ t)) :: ts
end

/-- Json.serialize (json.py:14-16) -/
def jsonSerialize (env : Env) (v : Val) : Except Exn Str := jsonText env v

/-! ### Reading -/

/-- JSONDecodeError is a ValueError. -/
def jsonError {α : Type} : Except Exn α := .error (.py .valueError)

/-- White space between tokens. -/
def jsonSpace (c : Char) : Bool := c == ' ' || c == '\t' || c == '\n' || c == '\r'
def jsonWs (s : Str) : Str := s.dropWhile jsonSpace

/-- Four hexadecimal digits. -/
def jsonHexVal (a b c d : Char) : Option Nat := do
  let w ← hexVal a
  let x ← hexVal b
  let y ← hexVal c
  let z ← hexVal d
  return w * 4096 + x * 256 + y * 16 + z

/-- The character after a backslash. -/
def jsonUnescape (c : Char) : Option Char :=
  if c = '"' then some '"' else if c = '\\' then some '\\' else if c = '/' then some '/'
  else if c = 'b' then some (Char.ofNat 8) else if c = 'f' then some (Char.ofNat 12)
  else if c = 'n' then some '\n' else if c = 'r' then some '\r' else if c = 't' then some '\t' else none

/-- A lone surrogate, which Python's texts can hold, is not represented. -/
def jsonLone {α : Type} : Except Exn α := .error (.py (.other 3))

/-- `scanstring_unicode` with `strict=True`, behind the opening quotation mark: the text and what follows it. -/
def jsonString : Str → Except Exn (Str × Str)
  | [] => jsonError
  | '"' :: r => .ok ([], r)
  | '\\' :: 'u' :: a :: b :: c :: d :: r =>
    match jsonHexVal a b c d with
    | none => jsonError
    | some n =>
      if 0xd800 ≤ n ∧ n < 0xdc00 then
        match r with
        | '\\' :: 'u' :: a' :: b' :: c' :: d' :: r' =>
          match jsonHexVal a' b' c' d' with
          | none => jsonError
          | some m =>
            if 0xdc00 ≤ m ∧ m < 0xe000 then
              (jsonString r').map fun p => (Char.ofNat (65536 + (n - 0xd800) * 1024 + (m - 0xdc00)) :: p.1, p.2)
            else jsonLone
        | _ => jsonLone
      else if 0xdc00 ≤ n ∧ n < 0xe000 then jsonLone
      else (jsonString r).map fun p => (Char.ofNat n :: p.1, p.2)
  | '\\' :: c :: r =>
    match jsonUnescape c with
    | some x => (jsonString r).map fun p => (x :: p.1, p.2)
    | none => jsonError
  | c :: r => if c = '\\' ∨ c.toNat < 32 then jsonError else (jsonString r).map fun p => (c :: p.1, p.2)

/-- The digits of a number before its fraction: the text and what follows it. -/
def jsonDigits : Str → Option (Str × Str)
  | [] => none
  | c :: r =>
    if c = '0' then some (['0'], r)
    else if asciiDigit c then some ((c :: r).takeWhile asciiDigit, (c :: r).dropWhile asciiDigit)
    else none

/-- A fraction, if there is one. -/
def jsonFrac : Str → Str × Str
  | '.' :: d :: r => if asciiDigit d then ('.' :: (d :: r).takeWhile asciiDigit, (d :: r).dropWhile asciiDigit) else ([], '.' :: d :: r)
  | s => ([], s)

/-- The digits of an exponent behind `pre`. -/
def jsonExpDigits (pre s : Str) : Str × Str :=
  match s with
  | d :: r => if asciiDigit d then (pre ++ (d :: r).takeWhile asciiDigit, (d :: r).dropWhile asciiDigit) else ([], pre ++ s)
  | [] => ([], pre)

/-- An exponent, if there is one. -/
def jsonExp : Str → Str × Str
  | e :: '+' :: r => if e = 'e' ∨ e = 'E' then jsonExpDigits [e, '+'] r else ([], e :: '+' :: r)
  | e :: '-' :: r => if e = 'e' ∨ e = 'E' then jsonExpDigits [e, '-'] r else ([], e :: '-' :: r)
  | e :: r => if e = 'e' ∨ e = 'E' then jsonExpDigits [e] r else ([], e :: r)
  | [] => ([], [])

/-- A minus sign, if there is one. -/
def jsonSign : Str → Str × Str
  | '-' :: r => (['-'], r)
  | s => ([], s)

/-- `_match_number_unicode` -/
def jsonNumber (env : Env) (s : Str) : Except Exn (Val × Str) :=
  let (sign, r) := jsonSign s
  match jsonDigits r with
  | none => jsonError
  | some (ds, r) =>
    let (frac, r) := jsonFrac r
    let (exp, r) := jsonExp r
    if frac.isEmpty && exp.isEmpty then
      match parseInt env.u (sign ++ ds) with
      | some i => .ok (.int i, r)
      | none => jsonError
    else match env.floatOfStr (sign ++ ds ++ frac ++ exp) with
      | some x => .ok (.float x, r)
      | none => jsonError

/-- `scan_once_unicode` for anything but texts, objects and arrays. -/
def jsonAtom (env : Env) (s : Str) : Except Exn (Val × Str) :=
  match dropPrefix? c!"null" s with
  | some r => .ok (.none, r)
  | none => match dropPrefix? c!"true" s with
    | some r => .ok (.bool true, r)
    | none => match dropPrefix? c!"false" s with
      | some r => .ok (.bool false, r)
      | none => match dropPrefix? c!"NaN" s with
        | some r => .ok (.float .nan, r)
        | none => match dropPrefix? c!"Infinity" s with
          | some r => .ok (.float (.inf false), r)
          | none => match dropPrefix? c!"-Infinity" s with
            | some r => .ok (.float (.inf true), r)
            | none => jsonNumber env s

mutual
/-- `scan_once_unicode`; the first argument bounds the recursion (the length of the text is enough; CPython's recursion
limit is not represented). -/
def jsonValue (env : Env) : Nat → Str → Except Exn (Val × Str)
  | 0, _ => .error (.py .recursionError)
  | n + 1, s =>
    match s with
    | '"' :: r => (jsonString r).map fun p => (.str p.1, p.2)
    | '{' :: r =>
      match jsonWs r with
      | '}' :: r => .ok (.dict [], r)
      | r => (jsonPairs env n r).map fun p => (.dict (dictOf p.1), p.2)
    | '[' :: r =>
      match jsonWs r with
      | ']' :: r => .ok (.list [], r)
      | r => (jsonItems env n r).map fun p => (.list p.1, p.2)
    | s => jsonAtom env s
/-- `_parse_array_unicode` from an element on -/
def jsonItems (env : Env) : Nat → Str → Except Exn (List Val × Str)
  | 0, _ => .error (.py .recursionError)
  | n + 1, s => do
    let (v, r) ← jsonValue env n s
    match jsonWs r with
    | ']' :: r => return ([v], r)
    | ',' :: r => do
      let (l, r) ← jsonItems env n (jsonWs r)
      return (v :: l, r)
    | _ => jsonError
/-- `_parse_object_unicode` from a key on -/
def jsonPairs (env : Env) : Nat → Str → Except Exn (List (Val × Val) × Str)
  | 0, _ => .error (.py .recursionError)
  | n + 1, s =>
    match s with
    | '"' :: r => do
      let (k, r) ← jsonString r
      match jsonWs r with
      | ':' :: r => do
        let (v, r) ← jsonValue env n (jsonWs r)
        match jsonWs r with
        | '}' :: r => return ([(.str k, v)], r)
        | ',' :: r => do
          let (l, r) ← jsonPairs env n (jsonWs r)
          return ((.str k, v) :: l, r)
        | _ => jsonError
      | _ => jsonError
    | _ => jsonError
end

/-- Json.unserialize (json.py:18-20) of a text: one value with white space around it.  A byte order mark at the beginning
is refused as no value begins with it.  Simplification: `json.loads` also takes bytes. -/
def jsonUnserialize (env : Env) (s : Str) : Except Exn Val := do
  let (v, r) ← jsonValue env (s.length + 1) (jsonWs s)
  if (jsonWs r).isEmpty then .ok v else jsonError

end Scheme
