import Verif.Model.Field

/-! The structured text format (scheme/formats/structuredtext.py). -/

namespace Scheme

/-- The class `[{}\[\]]` of STRUCTURE_TOKENS_EXPR (structuredtext.py:15). -/
def isBracket (c : Char) : Bool := c == '{' || c == '}' || c == '[' || c == ']'

/-- `STRUCTURE_TOKENS_EXPR.sub(r'\\\1', content)` (structuredtext.py:48) -/
def stEscape : Str → Str
  | [] => []
  | c :: r => if isBracket c then '\\' :: c :: stEscape r else c :: stEscape r

/-- `ESCAPED_TOKENS_EXPR.sub(r'\1', value)` (structuredtext.py:16, 112); the flag says that the previous character was
a backslash that has not been emitted yet. -/
def stUnescapeAux : Bool → Str → Str
  | true, [] => ['\\']
  | false, [] => []
  | true, c :: r =>
    if isBracket c then c :: stUnescapeAux false r
    else if c = '\\' then '\\' :: stUnescapeAux true r
    else '\\' :: c :: stUnescapeAux false r
  | false, c :: r => if c = '\\' then stUnescapeAux true r else c :: stUnescapeAux false r

/-- `ESCAPED_TOKENS_EXPR.sub(r'\1', value)` -/
def stUnescape (s : Str) : Str := stUnescapeAux false s

/-- `a <= b` for texts: by code points, lexicographically. -/
def strLe : Str → Str → Bool
  | [], _ => true
  | _ :: _, [] => false
  | a :: r, b :: s => a.toNat < b.toNat || (a == b && strLe r s)

/-- Insertion of an entry behind those with a smaller or equal key. -/
def sortInsert {α : Type} (e : Str × α) : List (Str × α) → List (Str × α)
  | [] => [e]
  | x :: r => if strLe e.1 x.1 then e :: x :: r else x :: sortInsert e r

/-- `sorted(d.items())` for pairwise different text keys: by key. -/
def sortEntries {α : Type} : List (Str × α) → List (Str × α)
  | [] => []
  | e :: r => sortInsert e (sortEntries r)

mutual
/-- StructuredText._serialize_content (structuredtext.py:32-50).  `none`: a dict with a key that is no text, which is
not represented.  The entries of a dict are serialized first and sorted afterwards.  `str` is the builtin function. -/
def stContent (str : Val → Str) : Val → Option Str
  | .dict d => (stContentD str d).map fun es =>
      '{' :: (joinStr c!"," ((sortEntries es).map fun e => e.1 ++ ':' :: e.2) ++ ['}'])
  | .list l => (stContentL str l).map fun ts => '[' :: (joinStr c!"," ts ++ [']'])
  | .tuple l => (stContentL str l).map fun ts => '[' :: (joinStr c!"," ts ++ [']'])
  | .bool b => some (if b then c!"true" else c!"false")
  | .none => some c!"null"
  | .str s => some (stEscape s)
  | .int i => some (intStr i)
  | v => some (str v)
/-- The loop over the elements of a list. -/
def stContentL (str : Val → Str) : List Val → Option (List Str)
  | [] => some []
  | v :: r => do
    let t ← stContent str v
    let ts ← stContentL str r
    some (t :: ts)
/-- The loop over the entries of a dict. -/
def stContentD (str : Val → Str) : List (Val × Val) → Option (List (Str × Str))
  | [] => some []
  | (.str k, v) :: r => do
    let t ← stContent str v
    let ts ← stContentD str r
    some ((k, t) :: ts)
  | _ :: _ => none
end

/-- StructuredText.serialize (structuredtext.py:19-20) -/
def stSerialize (env : Env) (v : Val) : Option Str := stContent env.str v

/-- StructuredText._unserialize_simple_value (structuredtext.py:103-123); `numbers` is `parse_numbers`. -/
def stSimple (env : Env) (numbers : Bool) (s : Str) : Val :=
  let candidate := lower env.u s
  if candidate = c!"true" then .bool true
  else if candidate = c!"false" then .bool false
  else if candidate = c!"null" then .none
  else if !numbers then .str (stUnescape s)
  else
    match (if s.contains '.' then env.floatOfStr s else none) with
    | some x => .float x
    | none => match parseInt env.u s with
      | some i => .int i
      | none => .str s

/-- What stands for a value in a document: what `structures` holds under it, else a simple value
(structuredtext.py:61-64, 77-80). -/
def stValue (env : Env) (numbers : Bool) (structs : List (Str × Val)) (s : Str) : Val :=
  match structs.lookup s with
  | some v => v
  | none => stSimple env numbers s

/-- `pair.split(':', 1)` when there is a colon. -/
def splitColon : Str → Option (Str × Str)
  | [] => none
  | c :: r => if c = ':' then some ([], r) else (splitColon r).map fun p => (c :: p.1, p.2)

/-- The loop over the pairs of a mapping (structuredtext.py:58-67); a pair without a colon is a ValueError. -/
def stPairs (env : Env) (numbers : Bool) (structs : List (Str × Val)) : List Str → Except Exn (List (Val × Val))
  | [] => .ok []
  | p :: r =>
    match splitColon p with
    | none => .error (.py .valueError)
    | some (k, s) => do
      let d ← stPairs env numbers structs r
      .ok ((.str k, stValue env numbers structs s) :: d)

/-- `dict(pairs)` -/
def dictOf (l : List (Val × Val)) : List (Val × Val) := l.foldl (fun d e => dictSet d e.1 e.2) []

/-- StructuredText._unserialize_structure (structuredtext.py:53-84), for a text with brackets around `inner`. -/
def stStructure (env : Env) (numbers : Bool) (structs : List (Str × Val)) (brace : Bool) (inner : Str) : Except Exn Val :=
  if brace then
    if inner.isEmpty then .ok (.dict [])
    else do
      let l ← stPairs env numbers structs (splitOn ',' inner)
      .ok (.dict (dictOf l))
  else
    if inner.isEmpty then .ok (.list [])
    else .ok (.list ((splitOn ',' inner).map (stValue env numbers structs)))

/-- The rest of STRUCTURE_EXPR (structuredtext.py:12-14) behind the opening bracket: the body up to the first
closing bracket `close` that is not part of an escape.  Body characters are escapes `\x` with `x` a bracket or a
backslash, and characters other than brackets and backslashes.  (The character classes of the expression leave out
one kind of closing bracket only; since the repetition is lazy, that one ends the match.) -/
def stBody (close : Char) : Str → Option Str
  | [] => none
  | '\\' :: c :: r => if isBracket c || c == '\\' then (stBody close r).map fun b => '\\' :: c :: b else none
  | c :: r =>
    if c = close then some []
    else if isBracket c || c == '\\' then none
    else (stBody close r).map (c :: ·)

/-- `STRUCTURE_EXPR.match` at the beginning of a text: whether it is a mapping, and what stands between the brackets. -/
def stMatch : Str → Option (Bool × Str)
  | '{' :: r => (stBody '}' r).map fun b => (true, b)
  | '[' :: r => (stBody ']' r).map fun b => (false, b)
  | _ => none

/-- `'||%d||' % n` -/
def stToken (n : Nat) : Str := '|' :: '|' :: (natStr n ++ ['|', '|'])

/-- `expr.subn(replace, text)` (structuredtext.py:91-98): the new text, the structures and the number of
replacements.  The first argument counts the characters that still belong to the previous match. -/
def stPass (env : Env) (numbers : Bool) :
    Nat → List (Str × Val) → Str → Except Exn (Str × List (Str × Val) × Nat)
  | _, structs, [] => .ok ([], structs, 0)
  | k + 1, structs, _ :: r => stPass env numbers k structs r
  | 0, structs, c :: r =>
    match stMatch (c :: r) with
    | some (brace, inner) => do
      let v ← stStructure env numbers structs brace inner
      let tok := stToken structs.length
      let (t, s, n) ← stPass env numbers (inner.length + 1) (structs ++ [(tok, v)]) r
      .ok (tok ++ t, s, n + 1)
    | none => do
      let (t, s, n) ← stPass env numbers 0 structs r
      .ok (c :: t, s, n)

/-- The loop of StructuredText._unserialize_structured_value (structuredtext.py:97-100).  The loop has no bound; the
first argument is one, and running out of it is a RecursionError that `C40_terminates` excludes. -/
def stLoop (env : Env) (numbers : Bool) : Nat → List (Str × Val) → Str → Except Exn Val
  | 0, _, _ => .error (.py .recursionError)
  | f + 1, structs, text => do
    let (t, s, n) ← stPass env numbers 0 structs text
    if n = 0 then
      match s.lookup t with
      | some v => .ok v
      | none => .error (.py .keyError)
    else stLoop env numbers f s t

/-- StructuredText._unserialize_structured_value (structuredtext.py:87-100) -/
def stStructured (env : Env) (numbers : Bool) (text : Str) : Except Exn Val :=
  stLoop env numbers (text.length + 1) [] text

/-- StructuredText.unserialize (structuredtext.py:22-29) -/
def stUnserialize (env : Env) (numbers : Bool) : Val → Except Exn Val
  | .str [] => .error (.py .indexError)
  | .str (c :: r) =>
    if c = '{' ∨ c = '[' then stStructured env numbers (c :: r) else .ok (stSimple env numbers (c :: r))
  | _ => .error (.py .valueError)

end Scheme
