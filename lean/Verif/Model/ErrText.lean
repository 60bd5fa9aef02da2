import Verif.Model.Errors
import Verif.Model.Util
import Verif.Model.Field

/-! The text of a `StructuralError` (scheme/exceptions.py:72-166). -/

namespace Scheme

/-- What the text of an error takes from the field of an exception object (`self.field`): per token of `field.errors`
the flags `show_field` and `show_value` of its `FieldError` (field.py:16-24), and `repr(field)`, which may raise. -/
structure ErrField where
  shows : Str → Option (Bool × Bool)
  repr : Except PyErr Str

/-- What the text of an error takes from elsewhere.  Values do not carry the field and the tracebacks of an exception
object, so they are given by functions of the object; `field` is `none` for exceptions without field. -/
structure ErrWorld where
  /-- `str.capitalize` -/
  capitalize : Str → Str
  /-- `repr(v)` -/
  repr : Val → Str
  /-- `str(v)` -/
  str : Val → Str
  field : Val → Option ErrField
  /-- `self.tracebacks`, what `capture` collected (exceptions.py:84-89) -/
  tracebacks : Val → List Str

/-- `error[key]` for an entry of `errors`: dicts only (exceptions.py:140-142). -/
def entryGet (x : Val) (key : Str) : Except PyErr Val :=
  match x with
  | .dict d =>
    match dictGet d (.str key) with
    | some v => .ok v
    | none => .error .keyError
  | _ => .error .typeError

/-- `field.errors[token]` (exceptions.py:140): unhashable tokens are a TypeError, other missing ones a KeyError. -/
def entryShows (f : ErrField) (token : Val) : Except PyErr (Bool × Bool) :=
  match token with
  | .str t =>
    match f.shows t with
    | some s => .ok s
    | none => .error .keyError
  | t => if hashable t then .error .keyError else .error .typeError

/-- `error['title'].capitalize()` (exceptions.py:141).  Simplification: bytes are not a title. -/
def entryTitle (w : ErrWorld) (title : Val) : Except PyErr Str :=
  match title with
  | .str t => .ok (w.capitalize t)
  | _ => .error .attributeError

/-- `'%s' % (..., x)` for a text or another object -/
def percentS (w : ErrWorld) (x : Val) : Str :=
  match x with
  | .str s => s
  | x => w.str x

/-- `'Value: %r' % self.value` (exceptions.py:147): a tuple is taken as the arguments of `%`, so it must have exactly
one element. -/
def valueLine (w : ErrWorld) (v : Val) : Except PyErr Str :=
  match v with
  | .tuple [x] => .ok (c!"Value: " ++ w.repr x)
  | .tuple _ => .error .typeError
  | v => .ok (c!"Value: " ++ w.repr v)

/-- exceptions.py:144-145 -/
def fieldLines (f : ErrField) (show? : Bool) : Except PyErr (List Str) :=
  if show? then f.repr.map fun r => [c!"Field: " ++ r] else .ok []

/-- exceptions.py:146-147 -/
def valueLines (w : ErrWorld) (show? : Bool) (v : Val) : Except PyErr (List Str) :=
  if show? && !v.isNone then (valueLine w v).map fun r => [r] else .ok []

/-- exceptions.py:149-152 -/
def tracebackLines (ts : List Str) : List Str :=
  if ts.isEmpty then [] else c!"Captured tracebacks:" :: ts.map fun t => indentText t (.width 2) true

/-- The paragraph for one entry (exceptions.py:139-154). -/
def entryParagraph (w : ErrWorld) (f : ErrField) (location : Str) (v : Val) (ts : List Str) (x : Val) : Except PyErr Str := do
  let token ← entryGet x c!"token"
  let flags ← entryShows f token
  let title ← (entryGet x c!"title").bind (entryTitle w)
  let message ← entryGet x c!"message"
  let fl ← fieldLines f flags.1
  let vl ← valueLines w flags.2 v
  return joinStr c!"\n" ((title ++ c!" error at " ++ location ++ c!": " ++ percentS w message) :: (fl ++ (vl ++ tracebackLines ts)))

/-- The loop of `_format_errors` (exceptions.py:139-154) -/
def entryParagraphs (w : ErrWorld) (f : ErrField) (location : Str) (v : Val) (ts : List Str) : List Val → Except PyErr (List Str)
  | [] => .ok []
  | x :: r => do
    let p ← entryParagraph w f location v ts x
    let ps ← entryParagraphs w f location v ts r
    return p :: ps

/-- `_format_errors` (exceptions.py:133-154) of the exception object `.exc cls identity es st v`: nothing without a field. -/
def ownParagraphs (w : ErrWorld) (cls : ErrCls) (identity : List Str) (es : List Val) (st v : Val) : Except PyErr (List Str) :=
  match w.field (.exc cls identity es st v) with
  | none => .ok []
  | some f => entryParagraphs w f (joinStr [] identity) v (w.tracebacks (.exc cls identity es st v)) es

mutual
/-- `_format_structure` (exceptions.py:156-166): the values of a dict, the items of anything else that can be iterated.
Simplification: of the values that are not lists, tuples or dicts only texts and bytes can be iterated. -/
def structParagraphs (w : ErrWorld) : Val → Except PyErr (List Str)
  | .list l => itemParagraphs w l
  | .tuple l => itemParagraphs w l
  | .dict d => valueParagraphs w d
  | .str _ => .ok []
  | .bytes _ => .ok []
  | _ => .error .typeError
/-- exceptions.py:161-166 -/
def itemParagraphs (w : ErrWorld) : List Val → Except PyErr (List Str)
  | [] => .ok []
  | x :: r => do
    let a ← childParagraphs w x
    let b ← itemParagraphs w r
    return a ++ b
/-- exceptions.py:158-166 -/
def valueParagraphs (w : ErrWorld) : List (Val × Val) → Except PyErr (List Str)
  | [] => .ok []
  | (_, x) :: r => do
    let a ← childParagraphs w x
    let b ← valueParagraphs w r
    return a ++ b
/-- One child: an error that has a structure contributes its structure only (exceptions.py:162-166). -/
def childParagraphs (w : ErrWorld) : Val → Except PyErr (List Str)
  | .exc cls i es st v => if st.isNone then ownParagraphs w cls i es st v else structParagraphs w st
  | _ => .ok []
end

/-- `'%02d' % n` -/
def twoDigits (n : Nat) : Str := if n < 10 then '0' :: natStr n else natStr n

/-- exceptions.py:98-100 -/
def enumerated : Nat → List Str → List Str
  | _, [] => []
  | i, p :: r => (c!"[" ++ twoDigits (i + 1) ++ c!"] " ++ indentText p (.width 5) false) :: enumerated (i + 1) r

/-- exceptions.py:93-94 -/
def rootParagraphs (w : ErrWorld) (e : SErr) : Except PyErr (List Str) :=
  if e.errors.isEmpty then .ok [] else ownParagraphs w e.cls e.identity e.errors e.struct e.value

/-- exceptions.py:95-96 -/
def nestedParagraphs (w : ErrWorld) (e : SErr) : Except PyErr (List Str) :=
  if e.struct.truthy then structParagraphs w e.struct else .ok []

/-- `format_errors` (exceptions.py:91-102) -/
def formatErrors (w : ErrWorld) (e : SErr) : Except PyErr (List Str) := do
  let own ← rootParagraphs w e
  let nested ← nestedParagraphs w e
  return enumerated 0 (own ++ nested)

/-- `__str__` (exceptions.py:72-73) -/
def errorText (w : ErrWorld) (e : SErr) : Except PyErr Str := do
  let ps ← formatErrors w e
  return joinStr c!"\n" (c!"validation failed" :: ps)

end Scheme
