import Verif.Model.StructuredText

/-! Formatting of values for humans (scheme/util.py:23-38, 152-232). -/

namespace Scheme

/-- abbreviate_string (util.py:23-38).  `half` is a float in Python 3 (`/`), and a float is no slice index. -/
def abbreviateString (s : Str) (maxlength : Nat) : Except Exn Str :=
  if s.length ≤ max maxlength 4 then .ok s else .error (.py .typeError)

/-- StructureFormatter.__init__ (util.py:152-156) -/
structure Formatter where
  abbreviate : Bool := false
  masks : List Str := []
  indent : Nat := 4

/-- What `_format_value` returns: a text, or a list of lines. -/
inductive Layout
  | single (s : Str)
  | lines (l : List Str)

/-- `self.indent * level` -/
def Formatter.pad (o : Formatter) (level : Nat) : Str := List.replicate (o.indent * level) ' '

/-- `s.rstrip(',')` -/
def rstripComma (s : Str) : Str := (s.reverse.dropWhile (· == ',')).reverse

/-- Texts among the keys. -/
def isTextKey : Val → Bool
  | .str _ => true
  | _ => false

/-- Numbers among the keys. -/
def numKey : Val → Option Int
  | .int i => some i
  | .bool b => some (if b then 1 else 0)
  | _ => none

/-- `a <= b` for two keys that can be compared. -/
def keyLe : Val → Val → Bool
  | .str a, .str b => strLe a b
  | a, b => match numKey a, numKey b with
    | some i, some j => decide (i ≤ j)
    | _, _ => false

/-- `str(k)` (util.py:169-172) -/
def strKey (env : Env) : Val → Str
  | .str s => s
  | k => env.str k

/-- Insertion of an entry before those with a greater or equal key. -/
def insertKey {α : Type} (e : Val × α) : List (Val × α) → List (Val × α)
  | [] => [e]
  | x :: r => if keyLe e.1 x.1 then e :: x :: r else x :: insertKey e r

/-- `sorted(d.items())`: keys differ, so values are not compared. -/
def sortKeys {α : Type} : List (Val × α) → List (Val × α)
  | [] => []
  | e :: r => insertKey e (sortKeys r)

/-- Whether `sorted` can compare the keys: at most one key, only texts, or only integers and booleans.  Simplification: two
or more keys of other types (which is a TypeError for None and mixed ones) are all treated as a TypeError. -/
def comparable (ks : List Val) : Bool :=
  ks.length ≤ 1 || ks.all isTextKey || ks.all (fun k => (numKey k).isSome)

/-- The lines of the entries with a one-line value, and those of the others (util.py:177-182). -/
def entryLines (env : Env) (pad : Str) (k : Str) : Layout → List Str × List Str
  | .single s => ([pad ++ env.repr (.str k) ++ c!": " ++ s ++ c!","], [])
  | .lines l => ([], (pad ++ env.repr (.str k) ++ c!": " ++ l.headD []) :: l.tail.dropLast ++ [pad ++ l.getLastD [] ++ c!","])

/-- util.py:164-184, from the sorted entries on -/
def dictLines (env : Env) (pad : Str) (es : List (Val × Layout)) : List Str :=
  let ls := es.map fun e => entryLines env pad (strKey env e.1) e.2
  c!"{" :: ls.flatMap (·.1) ++ ls.flatMap (·.2) ++ [c!"}"]

/-- util.py:193-199 -/
def itemLines (pad : Str) : Layout → List Str
  | .single s => [pad ++ s ++ c!","]
  | .lines l => (pad ++ l.headD []) :: l.tail.dropLast ++ [pad ++ l.getLastD [] ++ c!","]

/-- Whether the element has one line. -/
def Layout.isSingle : Layout → Bool
  | .single _ => true
  | .lines _ => false

/-- util.py:186-206, from the elements' descriptions on; `a` and `b` are the tokens. -/
def listLayout (env : Env) (pad : Str) (a b : Char) (ds : List Layout) : Layout :=
  let lines := ds.flatMap (itemLines pad)
  let line := a :: joinStr c!", " (lines.map fun l => rstripComma (strip env.u l)) ++ [b]
  if ds.all Layout.isSingle && decide (line.length ≤ 60) then .single line
  else .lines ([a] :: lines ++ [[b]])

/-- StructureFormatter._format_string (util.py:208-216) -/
def formatString (env : Env) (o : Formatter) (s : Str) : Except Exn Layout :=
  if o.abbreviate then (abbreviateString s 0).map fun s => .single (env.repr (.str s))
  else .ok (.single (env.repr (.str s)))

/-- util.py:173-176 -/
def maskOr (masked : Bool) (r : Except Exn Layout) : Except Exn Layout :=
  if masked then .ok (.single c!"***MASKED***") else r

mutual
/-- StructureFormatter._format_value (util.py:218-228) with _format_dict and _format_list.
The entries of a dict are formatted first and sorted afterwards: every error is a TypeError.  Simplification: surrogates,
which are dicts, are written by repr. -/
def formatValue (env : Env) (o : Formatter) : Nat → Val → Except Exn Layout
  | level, .dict d =>
    if comparable (d.map (·.1)) then do
      let es ← formatEntries env o (level + 1) d
      return .lines (dictLines env (o.pad (level + 1)) (sortKeys es))
    else .error (.py .typeError)
  | level, .list l => do
    let ds ← formatItems env o (level + 1) l
    return listLayout env (o.pad (level + 1)) '[' ']' ds
  | level, .tuple l => do
    let ds ← formatItems env o (level + 1) l
    return listLayout env (o.pad (level + 1)) '(' ')' ds
  | _, .str s => formatString env o s
  | _, v => .ok (.single (env.repr v))
/-- The loop of _format_list (util.py:191-192). -/
def formatItems (env : Env) (o : Formatter) : Nat → List Val → Except Exn (List Layout)
  | _, [] => .ok []
  | level, v :: r => do
    let d ← formatValue env o level v
    let ds ← formatItems env o level r
    return d :: ds
/-- The loop of _format_dict (util.py:168-176). -/
def formatEntries (env : Env) (o : Formatter) : Nat → List (Val × Val) → Except Exn (List (Val × Layout))
  | _, [] => .ok []
  | level, (k, v) :: r => do
    let d ← maskOr (o.masks.contains (strKey env k)) (formatValue env o level v)
    let ds ← formatEntries env o level r
    return (k, d) :: ds
end

/-- StructureFormatter.format (util.py:158-162), format_structure (util.py:230-232) -/
def formatStructure (env : Env) (o : Formatter) (level : Nat) (v : Val) : Except Exn Str := do
  match ← formatValue env o level v with
  | .single s => return s
  | .lines l => return joinStr c!"\n" l

end Scheme
