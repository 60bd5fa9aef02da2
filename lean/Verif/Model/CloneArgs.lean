import Verif.Model.Construct
import Verif.Model.Describe

/-! `Field.clone(**params)` as it is written: the attributes of a field are handed to its constructor
(scheme/field.py:250-265). -/

namespace Scheme

/-- What a field may have as an attribute and take as a keyword argument. -/
inductive Item
  /-- a value, a field, or a list, tuple or dict of fields -/
  | arg (a : Arg)
  /-- a callable -/
  | callable (i : Nat)
  /-- a compiled pattern -/
  | pattern (p : Nat)
  /-- a dict of aspects -/
  | aspects (l : List (Str × Val))
  /-- a list of `FieldError`, the argument `errors` -/
  | errors (l : List FErr)
  /-- what a field that was given such a list has as its attribute `errors`: a dict by token (field.py:205-208) -/
  | table (l : List FErr)

/-- Keyword arguments. -/
abbrev Kw := List (Str × Item)

/-- A value as an item. -/
abbrev Item.val (v : Val) : Item := .arg (.val v)

def callableItem : Option Nat → Item
  | some i => .callable i
  | none => .val .none

def patternItem : Option Nat → Item
  | some p => .pattern p
  | none => .val .none

def nameV : Option Str → Val
  | some s => .str s
  | none => .none

def dateV : Option PDate → Val
  | some d => .date d
  | none => .none

def timeV : Option PTime → Val
  | some d => .time d
  | none => .none

def dateTimeV : Option PDateTime → Val
  | some d => .datetime d
  | none => .none

def decV : Option Dec → Val
  | some d => .decimal d
  | none => .none

/-- The attributes that `Field.__init__` sets (field.py:187-206), in order.  Simplification: `preprocessor` and `errors` are
attributes of the instance only if they were given; here they are None and empty otherwise. -/
def commonDict (c : Common) : Kw := [
  (c!"aspects", .aspects c.aspects), (c!"constant", .val c.constant), (c!"default", .val c.default),
  (c!"description", .val c.description), (c!"extractor", callableItem c.extor), (c!"ignore_null", .val (.bool c.ignoreNull)),
  (c!"instantiator", callableItem c.instor), (c!"name", .val (nameV c.name)), (c!"notes", .val c.notes),
  (c!"nonnull", .val (.bool c.nonnull)), (c!"required", .val (.bool c.required)), (c!"title", .val c.title),
  (c!"preprocessor", callableItem c.pre), (c!"errors", .table c.errors)]

/-- The attributes that the constructors of the non-structural fields set besides (fields/*.py `__init__`).
Simplifications: the pattern of an Email, which its constructor replaces whatever it is given, and the `timezone` of a
DateTime are left out; an enumeration is a list. -/
def leafDict (env : Env) : Leaf → Kw
  | .any => []
  | .binary mn mx => [(c!"max_length", .val (natV mx)), (c!"min_length", .val (natV mn))]
  | .boolean => []
  | .date mn mx => [(c!"maximum", .val (dateV mx)), (c!"minimum", .val (dateV mn))]
  | .datetime mn mx utc => [(c!"maximum", .val (dateTimeV mx)), (c!"minimum", .val (dateTimeV mn)), (c!"utc", .val (.bool utc))]
  | .decimal mn mx => [(c!"maximum", .val (decV mx)), (c!"minimum", .val (decV mn))]
  | .definition valid => [(c!"valid_fields", .val (typesV valid))]
  | .email mn mx multiple extended => [(c!"max_length", .val (natV mx)), (c!"min_length", .val (natV mn)),
      (c!"extended", .val (.bool extended)), (c!"multiple", .val (.bool multiple))]
  | .enumeration vals ign => [(c!"enumeration", .val (.list vals)), (c!"ignored_values", .val (listV ign)),
      (c!"representation", .val (.str (enumRepr env vals)))]
  | .error => []
  | .float mn mx => [(c!"maximum", .val (floatV mx)), (c!"minimum", .val (floatV mn))]
  | .integer mn mx => [(c!"maximum", .val (intV mx)), (c!"minimum", .val (intV mn))]
  | .object => []
  | .surrogate valid => [(c!"valid_surrogates", .val (typesV valid))]
  | .text p mn mx strip => [(c!"max_length", .val (natV mx)), (c!"min_length", .val (natV mn)),
      (c!"pattern", patternItem p), (c!"strip", .val (.bool strip))]
  | .time mn mx => [(c!"maximum", .val (timeV mx)), (c!"minimum", .val (timeV mn))]
  | .token seg => [(c!"segments", .val (intV seg))]
  | .uuid => []

/-- A field or None. -/
def keyItem : Option Field → Item
  | some k => .arg (.field k)
  | none => .val .none

/-- A dict of members. -/
def defnItem (d : List (Str × Field)) : Arg := .dict (d.map fun e => (.str e.1, .field e.2))

/-- `field.__dict__`.  Simplification: no required keys and no key order are None. -/
def fieldDict (env : Env) : Field → Kw
  | .leaf c k => commonDict c ++ leafDict env k
  | .sequence c item mn mx u => commonDict c ++ [(c!"item", .arg (.field item)), (c!"max_length", .val (natV mx)),
      (c!"min_length", .val (natV mn)), (c!"unique", .val (.bool u))]
  | .map c key value req => commonDict c ++ [(c!"key", keyItem key), (c!"required_keys", .val (listV req)),
      (c!"value", .arg (.field value))]
  | .tuple c values => commonDict c ++ [(c!"values", .arg (.tuple (values.map .field)))]
  | .union c fields => commonDict c ++ [(c!"fields", .arg (.tuple (fields.map .field)))]
  | .structure c defn strict ko => commonDict c ++ [(c!"key_order", .val (listV (ko.map .str))),
      (c!"polymorphic_on", .val .none), (c!"strict", .val (.bool strict)), (c!"structure", .arg (defnItem defn))]
  | .poly c disc variants strict ko => commonDict c ++ [(c!"key_order", .val (listV (ko.map .str))),
      (c!"polymorphic_on", .arg (.field disc)), (c!"strict", .val (.bool strict)),
      (c!"structure", .arg (.dict (variants.map fun v => (v.1, defnItem v.2))))]
  | .undef _ => []

/-! ### Constructors with keyword arguments of every kind -/

/-- The part of an item that `initField` understands. -/
def Item.plain : Item → Arg
  | .arg a => a
  | _ => .val .none

/-- Whether the model represents an item as the argument of this name: callables, patterns, dicts of aspects and errors
only where the constructors expect them. -/
def Item.placed (key : Str) : Item → Bool
  | .arg _ => true
  | .callable _ => key = c!"preprocessor" || key = c!"instantiator" || key = c!"extractor"
  | .pattern _ => key = c!"pattern"
  | .aspects _ => key = c!"aspects"
  | .errors _ => key = c!"errors"
  | .table _ => key = c!"errors"

/-- The keyword parameters that the constructors of the field classes name besides those of `Field.__init__`. -/
def ctorKeys (type : Str) : List Str :=
  if type = c!"binary" then [c!"min_length", c!"max_length"]
  else if type = c!"date" then [c!"minimum", c!"maximum"]
  else if type = c!"datetime" then [c!"minimum", c!"maximum", c!"utc"]
  else if type = c!"decimal" then [c!"minimum", c!"maximum"]
  else if type = c!"definition" then [c!"valid_fields"]
  else if type = c!"email" then [c!"multiple", c!"extended", c!"pattern", c!"strip", c!"errors", c!"min_length", c!"max_length"]
  else if type = c!"enumeration" then [c!"enumeration", c!"ignored_values"]
  else if type = c!"float" then [c!"minimum", c!"maximum"]
  else if type = c!"integer" then [c!"minimum", c!"maximum"]
  else if type = c!"surrogate" then [c!"valid_surrogates"]
  else if type = c!"text" then [c!"pattern", c!"min_length", c!"max_length", c!"strip"]
  else if type = c!"time" then [c!"minimum", c!"maximum"]
  else if type = c!"token" then [c!"segments"]
  else if type = c!"sequence" then [c!"item", c!"min_length", c!"max_length", c!"unique"]
  else if type = c!"map" then [c!"value", c!"key", c!"required_keys"]
  else if type = c!"tuple" then [c!"values"]
  else if type = c!"union" then [c!"fields"]
  else if type = c!"structure" then [c!"structure", c!"strict", c!"polymorphic_on", c!"generate_default", c!"key_order"]
  else []

def Kw.callable (kw : Kw) (key : Str) : Option Nat :=
  match kw.lookup key with
  | some (.callable i) => some i
  | _ => none

/-- `aspects or {}` (field.py:187) -/
def Kw.aspects (kw : Kw) : List (Str × Val) :=
  match kw.lookup c!"aspects" with
  | some (.aspects l) => l
  | _ => []

/-- `for error in errors: self.errors[error.token] = error` (field.py:205-208); iterating a dict gives its keys, which have
no token. -/
def Kw.errors (kw : Kw) : Except Exn (List FErr) :=
  match kw.lookup c!"errors" with
  | some (.errors l) => .ok l
  | some (.table []) => .ok []
  | some (.table _) => .error (.py .attributeError)
  | _ => .ok []

/-- The loop over the parameters that no constructor names (field.py:210-212). -/
def aspectLoop (known : List Str) : Kw → List (Str × Val) → List (Str × Val)
  | [], a => a
  | (k, .arg (.val v)) :: r, a =>
    aspectLoop known r (if known.contains k || k.head? = some '_' || v.isNone then a else keySet k v a)
  | _ :: r, a => aspectLoop known r a

/-- The pattern of a Text (text.py:35-36, 45). -/
def setPattern (kw : Kw) : Field → Field
  | .leaf c (.text none mn mx strip) =>
    match kw.lookup c!"pattern" with
    | some (.pattern p) => .leaf c (.text (some p) mn mx strip)
    | _ => .leaf c (.text none mn mx strip)
  | f => f

/-- `type(self)(**kw)`: the constructors of `initField`, to which callables, patterns, aspects and errors are added.  An
Email uses its own errors whatever it is given (email.py:33-47).  Simplifications: where two arguments are wrong, which of
the errors is raised is not represented. -/
def newField (env : Env) (type : Str) (kw : Kw) : Except Exn Field :=
  if !kw.all (fun e => e.2.placed e.1) then unrepresented
  else do
    let f ← initField env type (kw.map fun e => (e.1, e.2.plain))
    let errors ← if type = c!"email" then .ok [] else kw.errors
    return setPattern kw (f.setCommon fun c => { c with
      pre := kw.callable c!"preprocessor"
      instor := kw.callable c!"instantiator"
      extor := kw.callable c!"extractor"
      aspects := aspectLoop (ctorKeys type ++ baseKeys) kw kw.aspects
      errors := errors })

/-! ### Cloning -/

mutual
/-- `deepcopy` of what a field has as an attribute: fields are cloned (field.py:234-235), everything else is copied.  A
placeholder without definition refers back to its holder, so that copying it does not end. -/
def copyArg (env : Env) (rec : Field → Except Exn Field) : Arg → Except Exn Arg
  | .val v => .ok (.val v)
  | .field f =>
    match resolve env f with
    | none => .error (.py .recursionError)
    | some g => (rec g).map .field
  | .list l => (copyArgs env rec l).map .list
  | .tuple l => (copyArgs env rec l).map .tuple
  | .dict d => (copyEntries env rec d).map .dict

def copyArgs (env : Env) (rec : Field → Except Exn Field) : List Arg → Except Exn (List Arg)
  | [] => .ok []
  | a :: r =>
    match copyArg env rec a with
    | .error e => .error e
    | .ok a' => (copyArgs env rec r).map (a' :: ·)

def copyEntries (env : Env) (rec : Field → Except Exn Field) : List (Val × Arg) → Except Exn (List (Val × Arg))
  | [] => .ok []
  | (k, a) :: r =>
    match copyArg env rec a with
    | .error e => .error e
    | .ok a' => (copyEntries env rec r).map ((k, a') :: ·)
end

def copyItem (env : Env) (rec : Field → Except Exn Field) : Item → Except Exn Item
  | .arg a => (copyArg env rec a).map .arg
  | i => .ok i

/-- The loop of `clone` (field.py:258-263): attributes not among the parameters are copied, unless that raises TypeError. -/
def cloneLoop (env : Env) (rec : Field → Except Exn Field) (params : Kw) : Kw → Except Exn Kw
  | [] => .ok []
  | (key, value) :: r =>
    if (params.lookup key).isSome then cloneLoop env rec params r
    else match copyItem env rec value with
      | .error (.py .typeError) => cloneLoop env rec params r
      | .error e => .error e
      | .ok value' => (cloneLoop env rec params r).map ((key, value') :: ·)

/-- `if 'default' not in params: params['default'] = self.default` (field.py:255-256) -/
def withOwnDefault (f : Field) (params : Kw) : Kw :=
  if (params.lookup c!"default").isSome then params
  else params ++ [(c!"default", .val ((f.common?.map (·.default)).getD .none))]

/-- One call of `field.clone(**params)` (field.py:250-265), fields inside copied by `rec`.  A placeholder has no `clone`. -/
def cloneParamsStep (env : Env) (rec : Field → Except Exn Field) (f : Field) (params : Kw) : Except Exn Field :=
  match f with
  | .undef _ => .error (.py .attributeError)
  | f => do
    let params := withOwnDefault f params
    let rest ← cloneLoop env rec params (fieldDict env f)
    newField env f.type (params ++ rest)

/-- `field.clone(**params)` with `n` levels of call depth available. -/
def cloneParams (env : Env) : Nat → Field → Kw → Except Exn Field
  | 0, _, _ => .error (.py .recursionError)
  | n + 1, f, params => cloneParamsStep env (fun g => cloneParams env n g []) f params

end Scheme
