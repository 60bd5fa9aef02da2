import Verif.Model.Clone
import Verif.Model.Init
import Verif.Model.Extract
import Verif.Model.Surrogate

/-! Describing fields and reconstructing them from descriptions (scheme/field.py:60-81, 268-325, 543-572, and the
`describe` methods and constructors of the field classes). -/

namespace Scheme

/-! ### describing -/

mutual
/-- Field._describe_parameter (field.py:558-572).  Simplification: a surrogate, which is a dict, counts as a value that
cannot be described. -/
def descParam (env : Env) : Val → Except Exn Val
  | .dict d => (descEntries env d).map .dict
  | .list l => (descItems env l).map .list
  | .tuple l => (descItems env l).map .tuple
  | .field h => env.describe h
  | .none => .ok .none
  | .bool b => .ok (.bool b)
  | .int i => .ok (.int i)
  | .float x => .ok (.float x)
  | .str s => .ok (.str s)
  | _ => .error .cannotDescribe
def descItems (env : Env) : List Val → Except Exn (List Val)
  | [] => .ok []
  | v :: r => do
    let v' ← descParam env v
    let r' ← descItems env r
    return v' :: r'
def descEntries (env : Env) : List (Val × Val) → Except Exn (List (Val × Val))
  | [] => .ok []
  | (k, v) :: r => do
    let v' ← descParam env v
    let r' ← descEntries env r
    return (k, v') :: r'
end

/-- A description, which is a dict with text keys. -/
abbrev Desc := List (Str × Val)

/-- The dict. -/
def Desc.val (d : Desc) : Val := .dict (d.map fun e => (.str e.1, e.2))

/-- `description[name] = self._describe_parameter(value)`, nothing if that raises CannotDescribeError. -/
def descSet (env : Env) (name : Str) (v : Val) (d : Desc) : Except Exn Desc :=
  match descParam env v with
  | .ok x => .ok (keySet name x d)
  | .error .cannotDescribe => .ok d
  | .error e => .error e

/-- The loop over the aspects (field.py:299-304). -/
def descAspects (env : Env) : List (Str × Val) → Desc → Except Exn Desc
  | [], d => .ok d
  | (a, v) :: r, d =>
    if v.isNone then descAspects env r d
    else do
      let d' ← descSet env a v d
      descAspects env r d'

/-- `value is default_value`; the defaults are None, True and False. -/
def isDefault : Val → Val → Bool
  | .none, .none => true
  | .bool a, .bool b => a == b
  | _, _ => false

/-- The loop over `self.parameters` (field.py:306-316): parameter, value of the attribute and default. -/
def descTable (env : Env) (verbose : Bool) (skip : List Str) : List (Str × Val × Val) → Desc → Except Exn Desc
  | [], d => .ok d
  | (name, v, dflt) :: r, d =>
    if skip.contains name || v.isNone || (!verbose && isDefault v dflt) then descTable env verbose skip r d
    else do
      let d' ← descSet env name v d
      descTable env verbose skip r d'

/-- The loop over the keyword parameters of `describe` (field.py:318-323). -/
def descOver (env : Env) (verbose : Bool) : List (Str × Val) → Desc → Except Exn Desc
  | [], d => .ok d
  | (name, v) :: r, d =>
    if !verbose && v.isNone then descOver env verbose r d
    else do
      let d' ← descSet env name v d
      descOver env verbose r d'

def intV : Option Int → Val
  | some i => .int i
  | none => .none
def natV : Option Nat → Val
  | some n => .int n
  | none => .none
def floatV : Option PyFloat → Val
  | some x => .float x
  | none => .none
/-- A tuple of texts, None if there are none. -/
def typesV : List Str → Val
  | [] => .none
  | l => .tuple (l.map .str)
def listV : List Val → Val
  | [] => .none
  | l => .list l

/-- `Field.parameters` (field.py:161-163) with the attributes of a field. -/
def baseTable (c : Common) (structural : Bool) : List (Str × Val × Val) := [
  (c!"name", match c.name with | some s => .str s | none => .none, .none),
  (c!"constant", c.constant, .none),
  (c!"description", c.description, .none),
  (c!"default", c.default, .none),
  (c!"nonnull", .bool c.nonnull, .bool false),
  (c!"ignore_null", .bool c.ignoreNull, .bool false),
  (c!"required", .bool c.required, .bool false),
  (c!"title", c.title, .none),
  (c!"notes", c.notes, .none),
  (c!"structural", .bool structural, .bool false)]

/-- The parameters a field class declares besides.  Simplifications: an enumeration and required keys are lists, empty
lists of required keys, valid fields and valid surrogates are None. -/
def leafTable : Leaf → List (Str × Val × Val)
  | .binary mn mx => [(c!"max_length", natV mx, .none), (c!"min_length", natV mn, .none)]
  | .date mn mx => [(c!"maximum", match mx with | some d => .date d | none => .none, .none),
      (c!"minimum", match mn with | some d => .date d | none => .none, .none)]
  | .datetime mn mx utc => [(c!"maximum", match mx with | some d => .datetime d | none => .none, .none),
      (c!"minimum", match mn with | some d => .datetime d | none => .none, .none), (c!"utc", .bool utc, .bool false)]
  | .definition valid => [(c!"valid_fields", typesV valid, .none)]
  | .email mn mx multiple extended => [(c!"max_length", natV mx, .none), (c!"min_length", natV mn, .none),
      (c!"strip", .bool false, .bool false), (c!"extended", .bool extended, .bool false),
      (c!"multiple", .bool multiple, .bool false)]
  | .enumeration vals _ => [(c!"enumeration", .list vals, .none)]
  | .float mn mx => [(c!"maximum", floatV mx, .none), (c!"minimum", floatV mn, .none)]
  | .integer mn mx => [(c!"maximum", intV mx, .none), (c!"minimum", intV mn, .none)]
  | .surrogate valid => [(c!"valid_surrogates", typesV valid, .none)]
  | .text _ mn mx strip => [(c!"max_length", natV mx, .none), (c!"min_length", natV mn, .none),
      (c!"strip", .bool strip, .bool true)]
  | .time mn mx => [(c!"maximum", match mx with | some d => .time d | none => .none, .none),
      (c!"minimum", match mn with | some d => .time d | none => .none, .none)]
  | _ => []

/-- A keyword parameter given only if there is something to give. -/
def overOf {α : Type} (name : Str) (text : α → Str) : Option α → List (Str × Val)
  | some x => [(name, .str (text x))]
  | none => []

/-- The keyword parameters of `super().describe` in date.py:56-63, datetime.py:62-69, decimal.py:58-65, time.py:52-59.
The bounds of a DateTime are formatted in their own zone, with a `Z`. -/
def leafOver (env : Env) : Leaf → List (Str × Val)
  | .date mn mx => overOf c!"maximum" (dateStr env.padYear) mx ++ overOf c!"minimum" (dateStr env.padYear) mn
  | .datetime mn mx _ => overOf c!"maximum" (dateTimeStr env.padYear) mx ++ overOf c!"minimum" (dateTimeStr env.padYear) mn
  | .decimal mn mx => overOf c!"maximum" decStr mx ++ overOf c!"minimum" decStr mn
  | .time mn mx => overOf c!"maximum" timeStr mx ++ overOf c!"minimum" timeStr mn
  | _ => []

/-- Field.describe (field.py:276-325).  Simplification: the `parameters` argument is None (see `descBaseW`). -/
def descBase (env : Env) (verbose : Bool) (type : Str) (c : Common) (structural : Bool) (table : List (Str × Val × Val))
    (over : List (Str × Val)) : Except Exn Val := do
  let d ← descAspects env c.aspects [(c!"fieldtype", .str type)]
  let d ← descTable env verbose (over.map (·.1)) (baseTable c structural ++ table) d
  let d ← descOver env verbose over d
  return Desc.val d

/-- A recursive call of `describe`. -/
abbrev DescRec := Field → Except Exn Val

/-- `child.describe(...)`; a placeholder has no such method. -/
def descChild (env : Env) (rec : DescRec) (f : Field) : Except Exn Val :=
  match resolve env f with
  | some g => rec g
  | none => .error (.py .attributeError)

def descList (env : Env) (rec : DescRec) : List Field → Except Exn (List Val)
  | [] => .ok []
  | f :: r => do
    let v ← descChild env rec f
    let r' ← descList env rec r
    return v :: r'

/-- Structure._describe_structure (structure.py:511-516) -/
def descDefn (env : Env) (rec : DescRec) : List (Str × Field) → Except Exn (List (Val × Val))
  | [] => .ok []
  | (name, f) :: r => do
    let v ← descChild env rec f
    let r' ← descDefn env rec r
    return (.str name, v) :: r'

/-- `child.process(value, OUTBOUND, True)` for a part of a default. -/
def descPart (env : Env) (proc : Proc) (f : Field) (v : Val) : Except Exn Val :=
  match resolve env f with
  | some g => proc g v .outbound true []
  | none => .error (.py .attributeError)

def descParts (env : Env) (proc : Proc) (f : Field) : List Val → Except Exn (List Val)
  | [] => .ok []
  | v :: r => do
    let v' ← descPart env proc f v
    let r' ← descParts env proc f r
    return v' :: r'

def descPartsD (env : Env) (proc : Proc) (f : Field) : List (Val × Val) → Except Exn (List (Val × Val))
  | [] => .ok []
  | (k, v) :: r => do
    let v' ← descPart env proc f v
    let r' ← descPartsD env proc f r
    return (k, v') :: r'

def descPartsT (env : Env) (proc : Proc) : List Field → List Val → Except Exn (List Val)
  | f :: fs, v :: r => do
    let v' ← descPart env proc f v
    let r' ← descPartsT env proc fs r
    return v' :: r'
  | _, _ => .ok []

/-- `default` in sequence.py:74-76 -/
def descSeqDefault (env : Env) (proc : Proc) (item : Field) (v : Val) : Except Exn Val :=
  if !v.truthy then .ok .none
  else do
    let l ← iterate v
    let l' ← descParts env proc item l
    return .list l'

/-- `default` in tuple.py:58-63 -/
def descTupDefault (env : Env) (proc : Proc) (values : List Field) (v : Val) : Except Exn Val :=
  if !v.truthy then .ok .none
  else do
    let l ← iterate v
    let l' ← descPartsT env proc values l
    return .tuple l'

/-- `default` in map.py:78-82 -/
def descMapDefault (env : Env) (proc : Proc) (value : Field) (v : Val) : Except Exn Val :=
  if !v.truthy then .ok .none
  else match v with
    | .dict d => do
      let d' ← descPartsD env proc value d
      return .dict d'
    | _ => .error (.py .attributeError)

/-- `field._serialize_value(value)`; structural fields do not override it (field.py:581-587). -/
def serializeOf (env : Env) (f : Field) (v : Val) : Except Exn Val :=
  match f with
  | .leaf c k => serializeLeaf env (.leaf c k) k v
  | _ => .ok v

/-- The loop over the default of a Structure (structure.py:164-165). -/
def descStructParts (env : Env) (defn : List (Str × Field)) : List (Val × Val) → Except Exn (List (Val × Val))
  | [] => .ok []
  | (.str name, v) :: r =>
    match defn.lookup name with
    | none => .error (.py .keyError)
    | some f =>
      match resolve env f with
      | none => .error (.py .attributeError)
      | some g => do
        let v' ← serializeOf env g v
        let r' ← descStructParts env defn r
        return (.str name, v') :: r'
  | _ :: _ => .error (.py .keyError)

def descStructDefault (env : Env) (defn : List (Str × Field)) (v : Val) : Except Exn Val :=
  if !v.truthy then .ok .none
  else match v with
    | .dict d => do
      let d' ← descStructParts env defn d
      return .dict d'
    | _ => .error (.py .attributeError)

/-- The members the default of a polymorphic structure is described by (structure.py:148-150). -/
def descPolyDefault (env : Env) (disc : Field) (variants : List (Val × List (Str × Field))) (v : Val) : Except Exn Val :=
  if !v.truthy then .ok .none
  else match v with
    | .dict d =>
      match dictGet d (match disc.name with | some s => .str s | none => .none) with
      | none => .error (.py .keyError)
      | some id =>
        match variants.find? (fun e => pyEq e.1 id) with
        | none => .error (.py .keyError)
        | some e => descStructDefault env e.2 v
    | _ => .error (.py .typeError)

/-- The variants (structure.py:152-155). -/
def descVariants (env : Env) (rec : DescRec) (disc : Field) : List (Val × List (Str × Field)) → List (Val × Val) →
    Except Exn (List (Val × Val))
  | [], d => .ok d
  | (id, defn) :: r, d => do
    let id' ← serializeOf env disc id
    let m ← descDefn env rec defn
    descVariants env rec disc r (dictSet d id' (.dict m))

/-- The description of the key field of a Map, if any (map.py:84-88); it is never a placeholder (map.py:53-54). -/
def descKey (rec : DescRec) : Option Field → Except Exn (List (Str × Val))
  | some k => (rec k).map fun v => [(c!"key", v)]
  | none => .ok []

/-- One call of `describe`; children are described by `rec`, parts of defaults processed by `proc`.  Simplification:
identities of a polymorphic structure that serialize to unhashable values are accepted. -/
def describeStep (env : Env) (verbose : Bool) (rec : DescRec) (proc : Proc) : DescRec
  | .leaf c k => descBase env verbose (leafType k) c false (leafTable k) (leafOver env k)
  | .sequence c item mn mx u => do
    let default ← descSeqDefault env proc item c.default
    let item' ← descChild env rec item
    descBase env verbose c!"sequence" c true
      [(c!"min_length", natV mn, .none), (c!"max_length", natV mx, .none), (c!"unique", .bool u, .bool false)]
      [(c!"item", item'), (c!"default", default)]
  | .map c key value req => do
    let default ← descMapDefault env proc value c.default
    let value' ← descChild env rec value
    let key' ← descKey rec key
    descBase env verbose c!"map" c true [(c!"required_keys", listV req, .none)]
      ([(c!"value", value'), (c!"default", default)] ++ key')
  | .tuple c values => do
    let values' ← descList env rec values
    let default ← descTupDefault env proc values c.default
    descBase env verbose c!"tuple" c true [] [(c!"values", .list values'), (c!"default", default)]
  | .union c fields => do
    let fields' ← descList env rec fields
    descBase env verbose c!"union" c true [] [(c!"fields", .list fields')]
  | .structure c defn strict _ => do
    let m ← descDefn env rec defn
    let default ← descStructDefault env defn c.default
    descBase env verbose c!"structure" c true [(c!"strict", .bool strict, .bool true)]
      [(c!"default", default), (c!"polymorphic_on", .none), (c!"structure", .dict m)]
  | .poly c disc variants strict _ => do
    let m ← descVariants env rec disc variants []
    let on ← rec disc
    let default ← descPolyDefault env disc variants c.default
    descBase env verbose c!"structure" c true [(c!"strict", .bool strict, .bool true)]
      [(c!"default", default), (c!"polymorphic_on", on), (c!"structure", .dict m)]
  | .undef _ => .error (.py .attributeError)

/-- `field.describe(verbose=verbose)` with `n` levels of call depth available. -/
def describe (env : Env) (verbose : Bool) : Nat → DescRec
  | 0 => fun _ => .error (.py .recursionError)
  | n + 1 => describeStep env verbose (describe env verbose n) (process env n)

/-! ### reconstructing -/

/-- A constructor argument: a value, a field, or a list, tuple or dict with a field somewhere inside. -/
inductive Arg
  | val (v : Val)
  | field (f : Field)
  | list (l : List Arg)
  | tuple (l : List Arg)
  | dict (d : List (Val × Arg))

def Arg.val? : Arg → Option Val
  | .val v => some v
  | _ => none

def argVals : List Arg → Option (List Val)
  | [] => some []
  | a :: r => (Arg.val? a).bind fun v => (argVals r).map (v :: ·)

def argEntries : List (Val × Arg) → Option (List (Val × Val))
  | [] => some []
  | (k, a) :: r => (Arg.val? a).bind fun v => (argEntries r).map ((k, v) :: ·)

def Arg.ofList (l : List Arg) : Arg := match argVals l with | some vs => .val (.list vs) | none => .list l
def Arg.ofTuple (l : List Arg) : Arg := match argVals l with | some vs => .val (.tuple vs) | none => .tuple l
def Arg.ofDict (d : List (Val × Arg)) : Arg := match argEntries d with | some e => .val (.dict e) | none => .dict d

/-- The arguments of a constructor. -/
abbrev Args := List (Str × Arg)

/-- Something the model does not represent. -/
def unrepresented {α : Type} : Except Exn α := .error (.py (.other 2))

/-- A keyword argument that is no field; None if it is missing. -/
def Args.get (args : Args) (key : Str) : Except Exn Val :=
  match args.lookup key with
  | none => .ok .none
  | some (.val v) => .ok v
  | some _ => unrepresented

/-- A flag, of which only the truth value is kept; `dflt` if it is missing. -/
def Args.flag (args : Args) (key : Str) (dflt : Bool) : Bool :=
  match args.lookup key with
  | none => dflt
  | some (.val v) => v.truthy
  | some _ => true

/-- The keyword parameters of Field.__init__ (field.py:171-174). -/
def baseKeys : List Str := [c!"name", c!"description", c!"default", c!"nonnull", c!"ignore_null", c!"required",
  c!"constant", c!"errors", c!"title", c!"notes", c!"nonempty", c!"instantiator", c!"extractor", c!"preprocessor",
  c!"aspects"]

/-- The loop over the remaining keyword parameters (field.py:210-212).  Simplification: those holding fields are left
out. -/
def initAspects (known : List Str) : Args → Except Exn (List (Str × Val))
  | [] => .ok []
  | (k, a) :: r =>
    if known.contains k then initAspects known r
    else match k with
      | [] => .error (.py .indexError)
      | c :: _ => do
        let r' ← initAspects known r
        match a with
        | .val v => return if c = '_' || v.isNone then r' else keySet k v r'
        | _ => return r'

/-- Field.__init__ (field.py:171-212).  Simplifications: callables, `aspects` and names other than texts are not
represented; `errors` that are no field errors all raise AttributeError. -/
def initCommon (known : List Str) (args : Args) : Except Exn Common := do
  let name ← args.get c!"name"
  let name ← match name with
    | .none => .ok none
    | .str s => .ok (some s)
    | _ => unrepresented
  let description ← args.get c!"description"
  let default ← args.get c!"default"
  let constant ← args.get c!"constant"
  let title ← args.get c!"title"
  let notes ← args.get c!"notes"
  let instor ← args.get c!"instantiator"
  let extor ← args.get c!"extractor"
  let pre ← args.get c!"preprocessor"
  let asp ← args.get c!"aspects"
  if !(instor.isNone && extor.isNone && pre.isNone && asp.isNone) then unrepresented
  else if args.flag c!"errors" false then .error (.py .attributeError)
  else do
    let aspects ← initAspects (known ++ baseKeys) args
    let nonempty := args.flag c!"nonempty" false
    return { name, default, constant, description, title, notes, aspects
             nonnull := nonempty || args.flag c!"nonnull" false
             required := nonempty || args.flag c!"required" false
             ignoreNull := args.flag c!"ignore_null" false }

/-- `x is None or (isinstance(x, int) and x >= 0)` (text.py:38-41 and others) -/
def lenArg : Val → Except Exn (Option Nat)
  | .none => .ok none
  | .int i => if 0 ≤ i then .ok (some i.toNat) else .error (.py .typeError)
  | .bool b => .ok (some (if b then 1 else 0))
  | _ => .error (.py .typeError)

/-- `nonempty` sets a minimum length unless one is given (text.py:29-32, binary.py:22-25). -/
def minArg (nonempty : Bool) (v : Val) : Val := if nonempty && v.isNone then .int 1 else v

/-- Bounds of a Date (date.py:31-43). -/
def dateArg (env : Env) : Val → Except Exn (Option PDate)
  | .none => .ok none
  | .date d => .ok (some d)
  | .datetime _ => unrepresented
  | .str s => match parseDate env.u s with
    | some d => .ok (some d)
    | none => .error (.py .typeError)
  | _ => .error (.py .typeError)

/-- Bounds of a Time (time.py:27-39). -/
def timeArg (env : Env) : Val → Except Exn (Option PTime)
  | .none => .ok none
  | .time t => .ok (some t)
  | .str s => match parseTime env.u s with
    | some t => .ok (some t)
    | none => .error (.py .typeError)
  | _ => .error (.py .typeError)

/-- Bounds of a DateTime are normalised to its zone (datetime.py:33-45). -/
def dateTimeArg (env : Env) (utc : Bool) : Val → Except Exn (Option PDateTime)
  | .none => .ok none
  | .datetime d => match normalizeDT env utc d with
    | .ok d' => .ok (some d')
    | .error e => .error (.py e)
  | .str s => match parseDateTime env.u s with
    | some d => match normalizeDT env utc d with
      | .ok d' => .ok (some d')
      | .error e => .error (.py e)
    | none => .error (.py .typeError)
  | _ => .error (.py .typeError)

/-- Bounds of a Decimal (decimal.py:27-45). -/
def decArg (env : Env) : Val → Except Exn (Option Dec)
  | .none => .ok none
  | .decimal d => .ok (some d)
  | .str s => match parseDec env.u s with
    | some d => .ok (some d)
    | none => .error (.py .typeError)
  | _ => .error (.py .typeError)

/-- Bounds of a Float (float.py:22-25). -/
def floatArg : Val → Except Exn (Option PyFloat)
  | .none => .ok none
  | .float x => .ok (some x)
  | _ => .error (.py .typeError)

/-- Bounds of an Integer (integer.py:22-25); a bool is an int. -/
def intArg : Val → Except Exn (Option Int)
  | .none => .ok none
  | .int i => .ok (some i)
  | .bool b => .ok (some (if b then 1 else 0))
  | _ => .error (.py .typeError)

/-- The field types of the library (`Field.types`). -/
def fieldTypes : List Str := [c!"field", c!"binary", c!"boolean", c!"date", c!"datetime", c!"decimal", c!"definition",
  c!"email", c!"enumeration", c!"error", c!"float", c!"integer", c!"map", c!"object", c!"sequence", c!"structure",
  c!"surrogate", c!"text", c!"time", c!"token", c!"tuple", c!"union", c!"uuid"]

/-- The texts of a list; the rest is not represented. -/
def strArgs : List Val → Except Exn (List Str)
  | [] => .ok []
  | .str s :: r => do
    let r' ← strArgs r
    return s :: r'
  | _ => unrepresented

/-- `valid_fields` (definition.py:22-37) -/
def typesArg : Val → Except Exn (List Str)
  | .str s => if (splitOn ' ' s).all fieldTypes.contains then .ok (splitOn ' ' s) else .error (.py .valueError)
  | .list l => do
    let l' ← strArgs l
    if l'.all fieldTypes.contains then return l' else .error (.py .valueError)
  | .tuple l => do
    let l' ← strArgs l
    if l'.all fieldTypes.contains then return l' else .error (.py .valueError)
  | v => if v.truthy then .error (.py .typeError) else .ok []

/-- `valid_surrogates` (surrogate.py:23-28) -/
def surrogatesArg : Val → Except Exn (List Str)
  | .str s => .ok (splitOn ' ' s)
  | .list l => strArgs l
  | .tuple l => strArgs l
  | v => if v.truthy then unrepresented else .ok []

/-- `isinstance(v, NATIVELY_SERIALIZABLE)` (field.py:11); a surrogate is a dict. -/
def nativeType : Val → Bool
  | .none => true
  | .bool _ => true
  | .int _ => true
  | .float _ => true
  | .str _ => true
  | .list _ => true
  | .tuple _ => true
  | .dict _ => true
  | .surr _ => true
  | _ => false

/-- `enumeration` (enumeration.py:20-25) -/
def enumArg : Val → Except Exn (List Val)
  | .str s => .ok (enumOfText s)
  | .list l => if l.all nativeType then .ok l else .error (.py .typeError)
  | .tuple l => if l.all nativeType then .ok l else .error (.py .typeError)
  | .none => .error (.py .typeError)
  | _ => unrepresented

/-- `ignored_values` (enumeration.py:27-37) -/
def ignoredArg : Val → Except Exn (List Val)
  | .str s => .ok (enumOfText s)
  | .list l => if l.all nativeType then .ok l else .error (.py .typeError)
  | .none => .ok []
  | _ => .error (.py .typeError)

/-- `required_keys` (map.py:56-60) -/
def keysArg : Val → Except Exn (List Val)
  | .str s => .ok (enumOfText s)
  | .list l => .ok l
  | .tuple l => .ok l
  | .none => .ok []
  | _ => .error (.py .typeError)

/-- A field as an argument. -/
def fieldArg : Option Arg → Except Exn Field
  | some (.field f) => .ok f
  | _ => .error (.py .typeError)

/-- The key field of a Map (map.py:53-54). -/
def keyArg : Option Arg → Except Exn (Option Field)
  | none => .ok none
  | some (.val .none) => .ok none
  | some a => (fieldArg (some a)).map some

def fieldArgs : List Arg → Except Exn (List Field)
  | [] => .ok []
  | .field f :: r => do
    let r' ← fieldArgs r
    return f :: r'
  | _ => .error (.py .typeError)

/-- A list or tuple containing at least one field (tuple.py:29-31, union.py:27-28). -/
def fieldsArg : Option Arg → Except Exn (List Field)
  | some (.list l) => fieldArgs l
  | some (.tuple l) => fieldArgs l
  | _ => .error (.py .typeError)

/-- A dict. -/
def dictArg : Option Arg → Except Exn (List (Val × Arg))
  | some (.dict d) => .ok d
  | some (.val (.dict d)) => .ok (d.map fun e => (e.1, .val e.2))
  | _ => .error (.py .typeError)

/-- Structure._prevalidate_structure (structure.py:557-573).  Simplification: members keyed by something else than texts
are not represented. -/
def defnArg : List (Val × Arg) → Except Exn (List (Str × Field))
  | [] => .ok []
  | (.str name, .field f) :: r => do
    let r' ← defnArg r
    return (name, nameMember name f) :: r'
  | (.str _, _) :: _ => .error (.py .typeError)
  | _ => unrepresented

/-- The variants; each gets the discriminator with its identity as constant (structure.py:97-100). -/
def variantsArg (env : Env) (disc : Field) (on : Str) : List (Val × Arg) → Except Exn (List (Val × List (Str × Field)))
  | [] => .ok []
  | (id, a) :: r => do
    let d ← dictArg (some a)
    let defn ← defnArg d
    let r' ← variantsArg env disc on r
    return (id, keySet on (discFor env disc id) defn) :: r'

/-- Structure.__init__ (structure.py:64-113).  Simplifications: a discriminator given by its name, members common to all
variants (`*`), key orders given otherwise than by a list of texts, generated defaults and discriminators without name
are not represented; a discriminator that is not required is copied with `required` set. -/
def initStructure (env : Env) (args : Args) : Except Exn Field := do
  let d ← dictArg (args.lookup c!"structure")
  let ko ← args.get c!"key_order"
  let gen ← args.get c!"generate_default"
  let c ← initCommon [c!"structure", c!"strict", c!"polymorphic_on", c!"generate_default", c!"key_order"] args
  let strict := args.flag c!"strict" true
  let ko ← match ko with
    | .list l => strArgs l
    | v => if v.truthy then unrepresented else .ok []
  if gen.truthy then unrepresented
  else match args.lookup c!"polymorphic_on" with
    | some (.field disc) =>
      match disc.name with
      | some (ch :: on) =>
        if (dictGet (d.map fun e => (e.1, Val.none)) (.str c!"*")).isSome then unrepresented
        else do
          let disc := disc.setCommon fun c => { c with required := true }
          let vs ← variantsArg env disc (ch :: on) d
          return .poly c disc vs strict ko
      | _ => unrepresented
    | some (.val v) =>
      if v.truthy then unrepresented
      else do
        let defn ← defnArg d
        return .structure c defn strict ko
    | some _ => unrepresented
    | none => do
      let defn ← defnArg d
      return .structure c defn strict ko

/-- The constructors of the field classes. -/
def initField (env : Env) (type : Str) (args : Args) : Except Exn Field :=
  if type = c!"binary" then do
    let c ← initCommon [c!"min_length", c!"max_length"] args
    let mn ← args.get c!"min_length"
    let mx ← args.get c!"max_length"
    let mn ← lenArg (minArg (args.flag c!"nonempty" false) mn)
    let mx ← lenArg mx
    return .leaf c (.binary mn mx)
  else if type = c!"boolean" then do
    let c ← initCommon [] args
    return .leaf c .boolean
  else if type = c!"date" then do
    let c ← initCommon [c!"minimum", c!"maximum"] args
    let mn ← args.get c!"minimum"
    let mx ← args.get c!"maximum"
    let mx ← dateArg env mx
    let mn ← dateArg env mn
    return .leaf c (.date mn mx)
  else if type = c!"datetime" then do
    let c ← initCommon [c!"minimum", c!"maximum", c!"utc"] args
    let mn ← args.get c!"minimum"
    let mx ← args.get c!"maximum"
    let utc := args.flag c!"utc" false
    let mx ← dateTimeArg env utc mx
    let mn ← dateTimeArg env utc mn
    return .leaf c (.datetime mn mx utc)
  else if type = c!"decimal" then do
    let c ← initCommon [c!"minimum", c!"maximum"] args
    let mn ← args.get c!"minimum"
    let mx ← args.get c!"maximum"
    let mn ← decArg env mn
    let mx ← decArg env mx
    return .leaf c (.decimal mn mx)
  else if type = c!"definition" then do
    let c ← initCommon [c!"valid_fields"] args
    let v ← args.get c!"valid_fields"
    let v ← typesArg v
    return .leaf c (.definition v)
  else if type = c!"email" then do
    let multiple := args.flag c!"multiple" false
    let extended := args.flag c!"extended" false
    if multiple && extended then .error (.py .valueError)
    else do
      let c ← initCommon [c!"multiple", c!"extended", c!"pattern", c!"strip", c!"errors", c!"min_length", c!"max_length"]
        (args.filter fun e => e.1 != c!"errors")
      let mn ← args.get c!"min_length"
      let mx ← args.get c!"max_length"
      let mn ← lenArg (minArg (args.flag c!"nonempty" false) mn)
      let mx ← lenArg mx
      return .leaf c (.email mn mx multiple extended)
  else if type = c!"enumeration" then do
    let c ← initCommon [c!"enumeration", c!"ignored_values"] args
    let vals ← args.get c!"enumeration"
    let ign ← args.get c!"ignored_values"
    let vals ← enumArg vals
    let ign ← ignoredArg ign
    return .leaf c (.enumeration vals ign)
  else if type = c!"error" then do
    let c ← initCommon [] args
    return .leaf c .error
  else if type = c!"field" then do
    let c ← initCommon [] args
    return .leaf c .any
  else if type = c!"float" then do
    let c ← initCommon [c!"minimum", c!"maximum"] args
    let mn ← args.get c!"minimum"
    let mx ← args.get c!"maximum"
    let mn ← floatArg mn
    let mx ← floatArg mx
    return .leaf c (.float mn mx)
  else if type = c!"integer" then do
    let c ← initCommon [c!"minimum", c!"maximum"] args
    let mn ← args.get c!"minimum"
    let mx ← args.get c!"maximum"
    let mn ← intArg mn
    let mx ← intArg mx
    return .leaf c (.integer mn mx)
  else if type = c!"object" then do
    let c ← initCommon [] args
    return .leaf c .object
  else if type = c!"surrogate" then do
    let c ← initCommon [c!"valid_surrogates"] args
    let v ← args.get c!"valid_surrogates"
    let v ← surrogatesArg v
    return .leaf c (.surrogate v)
  else if type = c!"text" then do
    let c ← initCommon [c!"pattern", c!"min_length", c!"max_length", c!"strip"] args
    let pat ← args.get c!"pattern"
    let mn ← args.get c!"min_length"
    let mx ← args.get c!"max_length"
    if !pat.isNone then unrepresented
    else do
      let mn ← lenArg (minArg (args.flag c!"nonempty" false) mn)
      let mx ← lenArg mx
      return .leaf c (.text none mn mx (args.flag c!"strip" true))
  else if type = c!"time" then do
    let c ← initCommon [c!"minimum", c!"maximum"] args
    let mn ← args.get c!"minimum"
    let mx ← args.get c!"maximum"
    let mx ← timeArg env mx
    let mn ← timeArg env mn
    return .leaf c (.time mn mx)
  else if type = c!"token" then do
    let c ← initCommon [c!"segments"] args
    let seg ← args.get c!"segments"
    match seg with
    | .none => return .leaf c (.token none)
    | .int i => return .leaf c (.token (some i))
    | _ => unrepresented
  else if type = c!"uuid" then do
    let c ← initCommon [] args
    return .leaf c .uuid
  else if type = c!"sequence" then do
    let c ← initCommon [c!"item", c!"min_length", c!"max_length", c!"unique"] args
    let item ← fieldArg (args.lookup c!"item")
    let mn ← args.get c!"min_length"
    let mx ← args.get c!"max_length"
    let mn ← lenArg mn
    let mx ← lenArg mx
    return .sequence c item mn mx (args.flag c!"unique" false)
  else if type = c!"map" then do
    let c ← initCommon [c!"value", c!"key", c!"required_keys"] args
    let value ← fieldArg (args.lookup c!"value")
    let key ← keyArg (args.lookup c!"key")
    let req ← args.get c!"required_keys"
    let req ← keysArg req
    return .map c key value req
  else if type = c!"tuple" then do
    let c ← initCommon [c!"values"] args
    let values ← fieldsArg (args.lookup c!"values")
    return .tuple c values
  else if type = c!"union" then do
    let c ← initCommon [c!"fields"] args
    let fields ← fieldsArg (args.lookup c!"fields")
    return .union c fields
  else if type = c!"structure" then initStructure env args
  else .error (.py .valueError)

/-- A recursive call of `_construct_parameter`. -/
abbrev ArgRec := Val → Except Exn Arg

def constructItems (rec : ArgRec) : List Val → Except Exn (List Arg)
  | [] => .ok []
  | v :: r => do
    let a ← rec v
    let r' ← constructItems rec r
    return a :: r'

def constructEntries (rec : ArgRec) : List (Val × Val) → Except Exn (List (Val × Arg))
  | [] => .ok []
  | (k, v) :: r => do
    let a ← rec v
    let r' ← constructEntries rec r
    return (k, a) :: r'

/-- Keyword arguments are named by texts (TypeError otherwise), and not by the first parameter of `construct` and
`__init__`. -/
def keywordArgs : List (Val × Arg) → Except Exn Args
  | [] => .ok []
  | (.str k, a) :: r =>
    if k = c!"cls" || k = c!"self" then .error (.py .typeError)
    else do
      let r' ← keywordArgs r
      return (k, a) :: r'
  | _ => .error (.py .typeError)

/-- FieldMeta.reconstruct (field.py:60-81) for a dict, with Field.construct (field.py:268-274); parameters are
constructed by `rec`.  Simplification: the argument, from which `fieldtype` is removed, is not changed;
Model/HeapReconstruct.lean has that. -/
def reconstructDict (env : Env) (rec : ArgRec) (d : List (Val × Val)) : Except Exn Field :=
  match dictGet d (.str c!"fieldtype") with
  | none => .error (.py .valueError)
  | some (.str t) =>
    if fieldTypes.contains t then do
      let e ← constructEntries rec (dictDel d (.str c!"fieldtype"))
      let args ← keywordArgs e
      initField env t args
    else .error (.py .valueError)
  | some v => if hashable v then .error (.py .valueError) else .error (.py .typeError)

/-- Field._construct_parameter (field.py:543-556).  Simplification: a surrogate is left as it is. -/
def constructStep (env : Env) (rec : ArgRec) : ArgRec
  | .dict d =>
    if (dictGet d (.str c!"fieldtype")).isSome then (reconstructDict env rec d).map .field
    else (constructEntries rec d).map .ofDict
  | .list l => (constructItems rec l).map .ofList
  | .tuple l => (constructItems rec l).map .ofTuple
  | v => .ok (.val v)

def constructArg (env : Env) : Nat → ArgRec
  | 0 => fun _ => .error (.py .recursionError)
  | n + 1 => constructStep env (constructArg env n)

/-- `Field.reconstruct(specification)` (field.py:60-81).  A text is a field type without parameters.  Simplification:
a field passed to it, which is returned as it is, is not represented. -/
def reconstruct (env : Env) (n : Nat) : Val → Except Exn Field
  | .dict d => reconstructDict env (constructArg env n) d
  | .str t => if fieldTypes.contains t then initField env t [] else .error (.py .valueError)
  | .field _ => unrepresented
  | _ => .error (.py .valueError)

end Scheme
