import Verif.Model.Codec
import Verif.Model.Re

/-! Field objects (schemas). -/

namespace Scheme

/-- A piece of a `%`-format error message: literal text or a `%(key)x` reference. -/
inductive Piece
  | lit (s : Str)
  | ref (key : Str)
  deriving DecidableEq

/-- `FieldError` (scheme/field.py:16-29); the message template is given as pieces. -/
structure FErr where
  token : Str
  title : Str
  message : List Piece
  deriving DecidableEq

/-- Attributes common to all fields (scheme/field.py:171-212).  Callables are handles interpreted by
the environment.  `description`, `title`, `notes` are kept as values for describe/screen/filter. -/
structure Common where
  name : Option Str := none
  default : Val := .none
  constant : Val := .none
  nonnull : Bool := false
  ignoreNull : Bool := false
  required : Bool := false
  pre : Option Nat := none
  instor : Option Nat := none
  extor : Option Nat := none
  errors : List FErr := []
  aspects : List (Str × Val) := []
  description : Val := .none
  title : Val := .none
  notes : Val := .none

/-- The non-structural field types and their parameters (scheme/fields/*.py `__init__`). -/
inductive Leaf
  /-- plain `Field` -/
  | any
  | binary (min max : Option Nat)
  | boolean
  | date (min max : Option PDate)
  | datetime (min max : Option PDateTime) (utc : Bool)
  | decimal (min max : Option Dec)
  | definition (valid : List Str)
  | email (min max : Option Nat) (multiple extended : Bool)
  | enumeration (vals ignored : List Val)
  | error
  | float (min max : Option PyFloat)
  | integer (min max : Option Int)
  | object
  | surrogate (valid : List Str)
  | text (pattern : Option Nat) (min max : Option Nat) (strip : Bool)
  | time (min max : Option PTime)
  | token (segments : Option Int)
  | uuid

/-- A field.  `undef slot` is an `Undefined` placeholder (scheme/field.py:616-634) whose current
definition is looked up in the environment; this is how recursive schemas are represented.
A slot stands for one position at which a placeholder was used: a structure stores a clone named after the key
(structure.py:504-509), so that the definitions found at two positions of one placeholder may differ in name.
`structure` is a plain Structure, `poly` a polymorphic one (`polymorphic_on` set): its variants are
keyed by identity and already contain the discriminator field (structure.py:97-100). -/
inductive Field
  | leaf (c : Common) (k : Leaf)
  | sequence (c : Common) (item : Field) (min max : Option Nat) (unique : Bool)
  | map (c : Common) (key : Option Field) (value : Field) (required : List Val)
  | tuple (c : Common) (values : List Field)
  | union (c : Common) (fields : List Field)
  | structure (c : Common) (defn : List (Str × Field)) (strict : Bool) (keyOrder : List Str)
  | poly (c : Common) (disc : Field) (variants : List (Val × List (Str × Field))) (strict : Bool)
      (keyOrder : List Str)
  | undef (slot : Nat)

/-- Everything outside the library: unicode data, user callables, compiled user patterns, zone
arithmetic, imports, textual `repr`/`str` of values, and the current definitions of placeholders. -/
structure Env where
  u : Chars
  /-- current definition of each placeholder (`Undefined.field`) -/
  defs : Nat → Option Field
  /-- user preprocessors -/
  pre : Nat → Val → Except PyErr Val
  /-- `pattern.match(value)` for user patterns -/
  pat : Nat → Str → Bool
  /-- `float(int)`; `none` is OverflowError -/
  floatOfInt : Int → Option PyFloat
  /-- `float(text)`; `none` is ValueError -/
  floatOfStr : Str → Option PyFloat
  /-- `Decimal(float)` -/
  decOfFloat : PyFloat → Dec
  /-- `Decimal(tuple)`; `none` is any exception -/
  decOfTuple : List Val → Option Dec
  /-- `dt.astimezone(tz)` for a datetime with a zone -/
  astz : PDateTime → Tz → Except PyErr PDateTime
  /-- whether the platform's `strftime('%Y')` pads to four digits -/
  padYear : Bool
  /-- `'%f' % x` -/
  fmtFloat : PyFloat → Str
  /-- `repr(v)` -/
  repr : Val → Str
  /-- `str(v)` for values other than strings -/
  str : Val → Str
  /-- `import_object(path)`; `none` is ImportError -/
  importObj : Str → Option Val
  /-- `identify_object(obj)`; `none` is TypeError -/
  identify : Val → Option Str
  /-- `field.type` of a field occurring as a value -/
  fieldType : Nat → Str
  /-- `field.describe()` of a field occurring as a value -/
  describe : Nat → Except Exn Val
  /-- `Field.reconstruct(value)`; `none` is any exception -/
  reconstruct : Val → Option Nat
  /-- `surrogate.serialize()` -/
  surrSerialize : Nat → Except Exn Val
  /-- `dict(surrogate)`: the contents of a surrogate (surrogate.py:13, a dict subclass) -/
  surrDict : Nat → List (Val × Val)
  /-- `surrogate.unserialize(dict)` -/
  surrUnserialize : List (Val × Val) → Except Exn Val

namespace Field

/-- The common attributes; an unresolved placeholder has none. -/
def common? : Field → Option Common
  | .leaf c _ => some c
  | .sequence c .. => some c
  | .map c .. => some c
  | .tuple c _ => some c
  | .union c _ => some c
  | .structure c .. => some c
  | .poly c .. => some c
  | .undef _ => none

def name (f : Field) : Option Str := f.common?.bind (·.name)

/-- `self.constant` of a placeholder-free field -/
def setCommon (g : Common → Common) : Field → Field
  | .leaf c k => .leaf (g c) k
  | .sequence c i a b u => .sequence (g c) i a b u
  | .map c k v r => .map (g c) k v r
  | .tuple c v => .tuple (g c) v
  | .union c v => .union (g c) v
  | .structure c d s k => .structure (g c) d s k
  | .poly c d v s k => .poly (g c) d v s k
  | .undef s => .undef s

end Field

/-- `field.type`: the lower-cased class name (field.py:37). -/
def leafType : Leaf → Str
  | .any => c!"field"
  | .binary .. => c!"binary"
  | .boolean => c!"boolean"
  | .date .. => c!"date"
  | .datetime .. => c!"datetime"
  | .decimal .. => c!"decimal"
  | .definition _ => c!"definition"
  | .email .. => c!"email"
  | .enumeration .. => c!"enumeration"
  | .error => c!"error"
  | .float .. => c!"float"
  | .integer .. => c!"integer"
  | .object => c!"object"
  | .surrogate _ => c!"surrogate"
  | .text .. => c!"text"
  | .time .. => c!"time"
  | .token _ => c!"token"
  | .uuid => c!"uuid"

def Field.type : Field → Str
  | .leaf _ k => leafType k
  | .sequence .. => c!"sequence"
  | .map .. => c!"map"
  | .tuple .. => c!"tuple"
  | .union .. => c!"union"
  | .structure .. => c!"structure"
  | .poly .. => c!"structure"
  | .undef _ => c!"undefined"

/-! ### Error tables (the `errors` lists of field.py:165-169 and of each field class) -/

private def E (token title : Str) (message : List Piece) : FErr := ⟨token, title, message⟩
private def fieldP : Piece := .ref c!"field"

/-- scheme/field.py:165-169 -/
def baseErrors : List FErr := [
  E c!"invalid" c!"invalid value" [fieldP, .lit c!" is an invalid value"],
  E c!"nonnull" c!"null value" [fieldP, .lit c!" must be a non-null value"],
  E c!"overflow" c!"overflow error" [fieldP, .lit c!" overflowed"]]

private def invalidE (what : Str) : FErr := E c!"invalid" c!"invalid value" [fieldP, .lit what]
private def boundE (tok : Str) (what key : Str) : FErr :=
  E tok (tok ++ c!" value") [fieldP, .lit what, .ref key]

/-- text.py:17-24 -/
def textErrors : List FErr := [
  invalidE c!" must be a textual value",
  E c!"pattern" c!"invalid value" [fieldP, .lit c!" has an invalid value"],
  E c!"min_length" c!"minimum length"
    [fieldP, .lit c!" must contain at least ", .ref c!"min_length", .lit c!" non-whitespace ", .ref c!"noun"],
  E c!"max_length" c!"maximum length"
    [fieldP, .lit c!" may contain at most ", .ref c!"max_length", .lit c!" ", .ref c!"noun"]]

/-- The errors declared by each leaf class itself. -/
def leafErrors : Leaf → List FErr
  | .any => []
  | .binary .. => [invalidE c!" must be a binary value",
      E c!"min_length" c!"minimum length"
        [fieldP, .lit c!" must contain at least ", .ref c!"min_length", .lit c!" ", .ref c!"noun"],
      E c!"max_length" c!"maximum length"
        [fieldP, .lit c!" must contain at most ", .ref c!"max_length", .lit c!" ", .ref c!"noun"]]
  | .boolean => [invalidE c!" must be a boolean value"]
  | .date .. => [invalidE c!" must be a date value",
      boundE c!"minimum" c!" must not occur before " c!"minimum",
      boundE c!"maximum" c!" must not occur after " c!"maximum"]
  | .datetime .. => [invalidE c!" must be a datetime value",
      boundE c!"minimum" c!" must not occur before " c!"minimum",
      boundE c!"maximum" c!" must not occur after " c!"maximum"]
  | .decimal .. => [invalidE c!" must be a decimal value",
      boundE c!"minimum" c!" must be greater then or equal to " c!"minimum",
      boundE c!"maximum" c!" must be less then or equal to " c!"maximum"]
  | .definition _ => [invalidE c!" must be a field definition",
      E c!"invalidfield" c!"invalid field" [fieldP, .lit c!" must be one of ", .ref c!"fields"]]
  | .email _ _ multiple _ =>
      (if multiple then
        E c!"pattern" c!"invalid value" [fieldP, .lit c!" must be a list of valid email addresses"]
      else E c!"pattern" c!"invalid value" [fieldP, .lit c!" must be a valid email address"])
      :: textErrors
  | .enumeration .. => [E c!"invalid" c!"invalid value" [fieldP, .lit c!" must be one of ", .ref c!"values"]]
  | .error => [invalidE c!" must be a structural error"]
  | .float .. => [invalidE c!" must be a floating-point number",
      boundE c!"minimum" c!" must be greater then or equal to " c!"minimum",
      boundE c!"maximum" c!" must be less then or equal to " c!"maximum"]
  | .integer .. => [invalidE c!" must be an integer",
      boundE c!"minimum" c!" must be greater then or equal to " c!"minimum",
      boundE c!"maximum" c!" must be less then or equal to " c!"maximum"]
  | .object => [invalidE c!" must be a python object",
      E c!"import" c!"object import" [.lit c!"cannot import ", .ref c!"value"]]
  | .surrogate _ => [invalidE c!" must be a surrogate",
      E c!"invalid-surrogate" c!"invalid surrogate" [fieldP, .lit c!" must be one of ", .ref c!"surrogate"]]
  | .text .. => textErrors
  | .time .. => [invalidE c!" must be a time value",
      boundE c!"minimum" c!" must not occur before " c!"minimum",
      boundE c!"maximum" c!" must not occur after " c!"maximum"]
  | .token _ => [invalidE c!" must be a valid token"]
  | .uuid => [invalidE c!" must be a UUID"]

/-- structure.py:56-62 -/
def structureErrors : List FErr := [
  invalidE c!" must be a structure",
  E c!"required" c!"required field"
    [fieldP, .lit c!" is missing required field '", .ref c!"name", .lit c!"'"],
  E c!"unknown" c!"unknown field"
    [fieldP, .lit c!" includes an unknown field '", .ref c!"name", .lit c!"'"],
  E c!"unrecognized" c!"unrecognized polymorphic identity"
    [fieldP, .lit c!" must specify a recognized polymorphic identity"]]

/-- The error table of the field's class: own declarations, then those of `Field`. -/
def Field.classErrors : Field → List FErr
  | .leaf _ k => leafErrors k ++ baseErrors
  -- sequence.py:36-41
  | .sequence .. => [
      invalidE c!" must be a sequence",
      E c!"min_length" c!"minimum length"
        [fieldP, .lit c!" must have at least ", .ref c!"min_length", .lit c!" ", .ref c!"noun"],
      E c!"max_length" c!"maximum length"
        [fieldP, .lit c!" must have at most ", .ref c!"max_length", .lit c!" ", .ref c!"noun"],
      E c!"duplicate" c!"duplicate value" [fieldP, .lit c!" must not have duplicate values"]] ++ baseErrors
  -- map.py:37-41
  | .map .. => [
      invalidE c!" must be a map",
      E c!"invalidkeys" c!"invalid keys" [fieldP, .lit c!" must have valid keys"],
      E c!"required" c!"required key"
        [fieldP, .lit c!" is missing required key '", .ref c!"name", .lit c!"'"]] ++ baseErrors
  -- tuple.py:23-26
  | .tuple .. => [
      invalidE c!" must be a tuple",
      E c!"length" c!"invalid length"
        [fieldP, .lit c!" must contain exactly ", .ref c!"length", .lit c!" values"]] ++ baseErrors
  | .union .. => baseErrors
  | .structure .. => structureErrors ++ baseErrors
  | .poly .. => structureErrors ++ baseErrors
  | .undef _ => []

/-- Instance level overrides, latest first (field.py:205-208); Email discards them
(email.py:33-47). -/
def Field.customErrors (f : Field) : List FErr :=
  match f with
  | .leaf _ (.email ..) => []
  | f => match f.common? with
    | some c => c.errors.reverse
    | none => []

/-- The effective error table of a field; the first entry with a token wins. -/
def Field.errorTable (f : Field) : List FErr := f.customErrors ++ f.classErrors

/-- `message % params`; a missing key is a KeyError (`none`). -/
def formatPieces (params : List (Str × Str)) : List Piece → Option Str
  | [] => some []
  | .lit s :: r => (formatPieces params r).map (s ++ ·)
  | .ref k :: r =>
    match params.lookup k with
    | some s => (formatPieces params r).map (s ++ ·)
    | none => none

/-- `field.name or 'unknown-field'` (field.py:28) -/
def displayName (f : Field) : Str :=
  match f.name with
  | some (a :: s) => a :: s
  | _ => c!"unknown-field"

/-- `ValidationError(identity=anc, field=f, value=v).construct(token, **params)`
(exceptions.py:206-209, field.py:26-29): an unknown token or a template parameter that is not
supplied raises KeyError instead. -/
def mkErr (f : Field) (cls : ErrCls) (anc : List Str) (v : Val) (token : Str)
    (params : List (Str × Str)) : Exn :=
  match f.errorTable.find? (·.token == token) with
  | none => .py .keyError
  | some e =>
    match formatPieces (params ++ [(c!"field", displayName f)]) e.message with
    | none => .py .keyError
    | some m => .structural {
        cls, identity := anc, struct := .none, value := v,
        errors := [.dict [(.str c!"token", .str e.token), (.str c!"title", .str e.title),
          (.str c!"message", .str m)]] }

end Scheme
