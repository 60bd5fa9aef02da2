import Verif.Model.Field

/-! The registry of formats (scheme/format.py). -/

namespace Scheme

/-- A key of `Format.formats`: a text or a class. -/
inductive FTok
  | text (s : Str)
  | cls (i : Nat)
  deriving DecidableEq

/-- The attributes of a format class as attribute lookup finds them (format.py:33-35). -/
structure FormatCls where
  name : Option Str := none
  mimetype : Option Str := none
  extensions : Option (List Str) := none

/-- A class statement `class X(Base): ...`: the base (a class defined before, or `Format` itself) and the attributes
assigned in the body.  Simplification: one base. -/
structure FormatDecl where
  base : Option Nat := none
  name : Option (Option Str) := none
  mimetype : Option (Option Str) := none
  extensions : Option (Option (List Str)) := none

/-- The classes defined so far, by number, and `Format.formats` with the latest assignment first. -/
structure Formats where
  classes : List FormatCls
  table : List (FTok × Nat)

/-- After `class Format` (format.py:27-35): its name is None, nothing is registered (format.py:10-11). -/
def Formats.init : Formats := ⟨[], []⟩

/-- The base of a class statement; `Format` has no name, mimetype or extensions. -/
def Formats.base (st : Formats) (d : FormatDecl) : FormatCls :=
  match d.base with
  | none => {}
  | some i => (st.classes[i]?).getD {}

/-- A truthy text. -/
def truthyText : Option Str → Option Str
  | some (c :: r) => some (c :: r)
  | _ => none

/-- The loop over the extensions (format.py:13-16): the tokens registered; `extension[0]` of an empty text is an
IndexError. -/
def extTokens : List Str → Except PyErr (List FTok)
  | [] => .ok []
  | [] :: _ => .error .indexError
  | (c :: e) :: r => do
    let l ← extTokens r
    return if c = '.' then .text (c :: e) :: l else l

/-- The mimetype (format.py:19-20). -/
def mimeTokens (o : Option Str) : List FTok :=
  match truthyText o with
  | some m => [.text m]
  | none => []

/-- FormatMeta.__new__ (format.py:8-24): the tokens under which a class is registered, in order. -/
def formatTokens (c : FormatCls) (i : Nat) : Except PyErr (List FTok) :=
  match truthyText c.name with
  | none => .ok []
  | some n => do
    let exts ← extTokens (c.extensions.getD [])
    return exts ++ [.text n] ++ mimeTokens c.mimetype ++ [.cls i]

/-- A class statement (format.py:8-24).  Simplification: a failing one ends the program. -/
def Formats.define (st : Formats) (d : FormatDecl) : Except PyErr Formats := do
  let b := st.base d
  let c : FormatCls := ⟨d.name.getD b.name, d.mimetype.getD b.mimetype, d.extensions.getD b.extensions⟩
  let toks ← formatTokens c st.classes.length
  return ⟨st.classes ++ [c], (toks.map fun t => (t, st.classes.length)).reverse ++ st.table⟩

/-- Class statements one after another. -/
def Formats.run : Formats → List FormatDecl → Except PyErr Formats
  | st, [] => .ok st
  | st, d :: r => do
    let st' ← st.define d
    st'.run r

/-- `Format.formats[token]` -/
def Formats.get (st : Formats) (t : FTok) : Option Nat := st.table.lookup t

/-- genericpath._splitext behind the last `/` and with the name reversed: skips nothing but characters other than a
dot; `e` is the extension read so far. -/
def extOf : Str → Str → Str
  | _, [] => []
  | e, '.' :: r => if r.all (· == '.') then [] else '.' :: e
  | e, c :: r => extOf (c :: e) r

/-- `os.path.splitext(path)[-1]` (posixpath) -/
def splitExt (path : Str) : Str := extOf [] ((path.reverse).takeWhile (· != '/'))

/-- The format used by `Format.read`, `Format.write` and the same methods of a subclass (format.py:43-55, 70-82): the
argument `format`, else the class itself if it has a name, else by extension.  `cls` is none for `Format`. -/
def chooseFormat (u : Chars) (st : Formats) (cls : Option Nat) (format : Option FTok) (path : Str) : Except PyErr Nat :=
  match format with
  | some t =>
    if t = .text [] then byClass else match st.get t with
      | some i => .ok i
      | none => .error .valueError
  | none => byClass
where
  byClass : Except PyErr Nat :=
    match cls with
    | some i => if (truthyText ((st.classes[i]?).bind (·.name))).isSome then .ok i else byPath
    | none => byPath
  byPath : Except PyErr Nat :=
    match st.get (.text (lower u (splitExt path))) with
    | some i => .ok i
    | none => .error .valueError

/-! ### The formats of the library -/

/-- scheme/formats/__init__.py:1-6 with the class bodies of csv.py:16-19, json.py:9-12, structuredtext.py:8-10,
urlencoded.py:16-18, xml.py:10-13 and yaml.py:23-29. -/
def libraryFormats : List FormatDecl :=
  [{ name := some (some c!"csv"), mimetype := some (some c!"application/csv"), extensions := some (some [c!".csv"]) },
   { name := some (some c!"json"), mimetype := some (some c!"application/json"), extensions := some (some [c!".json"]) },
   { name := some (some c!"structuredtext"), mimetype := some (some c!"text/plain") },
   { base := some 2, name := some (some c!"urlencoded"), mimetype := some (some c!"application/x-www-form-urlencoded") },
   { name := some (some c!"xml"), mimetype := some (some c!"application/xml"), extensions := some (some [c!".xml"]) },
   { name := some (some c!"yaml"), mimetype := some (some c!"application/x-yaml"), extensions := some (some [c!".yaml", c!".yml"]) }]

/-- How many positional arguments `serialize` and `unserialize` of the library's formats take besides the class
(csv.py:32, 84; json.py:15, 19; structuredtext.py:19, 23; urlencoded.py:21, 32; xml.py:19, 33; yaml.py:35, 42). -/
def positional : List (Nat × Nat) := [(4, 2), (2, 2), (2, 3), (1, 1), (3, 2), (2, 2)]

/-- `cls.formats[format].serialize(value, schema)` (format.py:66, 70): whether the call can be made.  An unknown
format is a KeyError, a method that takes fewer than two arguments a TypeError. -/
def canCall (st : Formats) (format : FTok) (pick : Nat × Nat → Nat) : Except PyErr Nat :=
  match st.get format with
  | none => .error .keyError
  | some i => match positional[i]? with
    | some p => if 2 ≤ pick p then .ok i else .error .typeError
    | none => .ok i

end Scheme
