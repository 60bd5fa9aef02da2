import Verif.Model.Extract

/-! `interpolate` of all field types (scheme/interpolation.py). -/

namespace Scheme

/-- The template engine together with the parameters of the call: `Interpolator.evaluate` and
`Interpolator.interpolate` (interpolation.py:45-58), which are jinja2 and not part of the repository, and
`surrogate.interpolate` (surrogate.py:103-112). -/
structure Templates where
  evaluate : Str → Except Exn Val
  render : Str → Except Exn Val
  surrogate : List (Val × Val) → Except Exn Val

/-- `VARIABLE_EXPR.match(subject)` and its first group (interpolation.py:15, 83-85): leading white space, `${`, one
or more characters other than `}`, `}` and only white space after it.  The pattern matches in at most one way. -/
def variableExpr (u : Chars) (s : Str) : Option Str :=
  match s.dropWhile (isSpace u) with
  | '$' :: '{' :: r =>
    let inner := r.takeWhile (· != '}')
    match r.dropWhile (· != '}') with
    | _ :: tail => if !inner.isEmpty && tail.all (isSpace u) then some inner else none
    | [] => none
  | _ => none

/-- interpolate_parameters (interpolation.py:60-89) -/
def interpolateParams (env : Env) (t : Templates) (simple : Bool) : Val → Except Exn Val
  | .str s =>
    if s.isEmpty then .ok (.str [])
    else if !simple then t.render s
    else match variableExpr env.u s with
      | some e => t.evaluate (strip env.u e)
      | none => .ok (.str s)
  | _ => .error (.py .valueError)

/-- `isinstance(subject, self.equivalent)` for the fields that use Field.interpolate (field.py:412-413; binary.py:12,
boolean.py:10, date.py:19, datetime.py:16, definition.py:12, time.py:15).  A datetime is a date. -/
def isEquivalent : Leaf → Val → Bool
  | .binary .., .bytes _ => true
  | .boolean, .bool _ => true
  | .date .., .date _ => true
  | .date .., .datetime _ => true
  | .datetime .., .datetime _ => true
  | .definition _, .field _ => true
  | .time .., .time _ => true
  | _, _ => false

/-- The result of a conversion, any failure being a ValueError.  Simplification: `int`, `float` and `Decimal` also
raise TypeError, OverflowError or InvalidOperation; none of them is handled by any caller. -/
def converted {α : Type} (wrap : α → Val) : Option α → Except Exn Val
  | some x => .ok (wrap x)
  | none => .error (.py .valueError)

/-- `isinstance(v, numbers)` (util.py:14); booleans are integers. -/
def isNumber : Val → Bool
  | .bool _ => true
  | .int _ => true
  | .float _ => true
  | _ => false

/-- `interpolate` of the leaf fields, for a subject that is not None (field.py:408-416, integer.py:38-44,
float.py:38-44, decimal.py:67-73, text.py:59-63, token.py:30-34, uuid.py:23-27, enumeration.py:46-54,
surrogate.py:36-47). -/
def interpolateLeaf (env : Env) (t : Templates) (k : Leaf) (v : Val) : Except Exn Val :=
  match k with
  | .integer .. =>
    if isNumber v then converted .int (toInt env v)
    else do
      let x ← interpolateParams env t true v
      converted .int (toInt env x)
  | .float .. =>
    if isNumber v then converted .float (toFloat env v)
    else do
      let x ← interpolateParams env t true v
      converted .float (toFloat env x)
  | .decimal .. =>
    match v with
    | .decimal d => .ok (.decimal d)
    | v => do
      let x ← interpolateParams env t true v
      converted .decimal (toDec env x)
  | .text .. => interpolateParams env t false v
  | .email .. => interpolateParams env t false v
  | .token _ => interpolateParams env t false v
  | .uuid => interpolateParams env t true v
  | .enumeration vals _ =>
    if pyIn v vals then .ok v
    else do
      let x ← interpolateParams env t true v
      if pyIn x vals then .ok x else .error .cannotInterpolate
  | .surrogate _ => do
    let x ← if v.isStr then interpolateParams env t true v else .ok v
    match x with
    | .surr h => .ok (.surr h)
    | .dict d => t.surrogate d
    | _ => .error (.py .valueError)
  | k => if isEquivalent k v then .ok v else interpolateParams env t true v

/-- `except UndefinedParameterError: continue` -/
def notUndefined : Except Exn Val → Except Exn (Option Val)
  | .ok v => .ok (some v)
  | .error .undefinedParameter => .ok none
  | .error e => .error e

/-- The loop of Sequence.interpolate (sequence.py:154-161). -/
def interpolateItems (env : Env) (rec : Ext) (item : Field) : List Val → Except Exn (List Val)
  | [] => .ok []
  | v :: r => do
    let x ← extractChild env rec item v
    let r' ← interpolateItems env rec item r
    return x :: r'

/-- The loop of Tuple.interpolate (tuple.py:152-159): further values are ignored. -/
def interpolateSlots (env : Env) (rec : Ext) : List Field → List Val → Except Exn (List Val)
  | [], _ => .ok []
  | _ :: _, [] => .error (.py .indexError)
  | f :: fs, v :: r => do
    let x ← extractChild env rec f v
    let r' ← interpolateSlots env rec fs r
    return x :: r'

/-- `interpolation[key] = ...` unless the parameter is undefined. -/
def keepEntry (k : Val) (x : Option Val) (r : List (Val × Val)) : List (Val × Val) :=
  match x with
  | some w => (k, w) :: r
  | none => r

/-- The loop of Map.interpolate (map.py:165-174). -/
def interpolateEntries (env : Env) (rec : Ext) (value : Field) : List (Val × Val) → Except Exn (List (Val × Val))
  | [] => .ok []
  | (k, v) :: r => do
    let x ← notUndefined (extractChild env rec value v)
    let r' ← interpolateEntries env rec value r
    return keepEntry k x r'

/-- The loop of Structure.interpolate (structure.py:322-336).  Names are distinct, so that every assignment
appends. -/
def interpolateMembers (env : Env) (rec : Ext) (d : List (Val × Val)) : List (Str × Field) → Except Exn (List (Val × Val))
  | [] => .ok []
  | (name, f) :: r =>
    match dictGet d (.str name) with
    | none => interpolateMembers env rec d r
    | some v => do
      let x ← notUndefined (extractChild env rec f v)
      let r' ← interpolateMembers env rec d r
      return keepEntry (.str name) x r'

/-- The same loop when the identity is falsy: the definition maps identities to dicts, which have no `interpolate`
method (structure.py:545-550). -/
def interpolateIdentities (d : List (Val × Val)) : List (Val × List (Str × Field)) → Except Exn (List (Val × Val))
  | [] => .ok []
  | (i, _) :: r =>
    match dictGet d i with
    | none => interpolateIdentities d r
    | some _ => .error (.py .attributeError)

/-- The loop of Union.interpolate (union.py:85-96).  The name `interpolater` is not defined, so that the first call
raises NameError once the method has been looked up; a placeholder without a definition has no such method. -/
def interpolateUnion (env : Env) : List Field → Except Exn Val
  | [] => .error .cannotInterpolate
  | f :: _ =>
    match resolve env f with
    | none => .error .undefinedField
    | some _ => .error (.py .nameError)

/-- The containers' `interpolate` once a text has been evaluated (sequence.py:148-163, tuple.py:148-161,
map.py:159-176, structure.py:316-338, union.py:85-96). -/
def interpolateBody (env : Env) (rec : Ext) (f : Field) (v : Val) : Except Exn Val :=
  match f with
  | .leaf .. => .ok v
  | .sequence _ item .. =>
    match v with
    | .list l => (interpolateItems env rec item l).map .list
    | .tuple l => (interpolateItems env rec item l).map .list
    | _ => .error .cannotInterpolate
  | .map _ _ value _ =>
    match v with
    | .dict d => (interpolateEntries env rec value d).map .dict
    | _ => .error .cannotInterpolate
  | .tuple _ values =>
    match v with
    | .list l => (interpolateSlots env rec values l).map .tuple
    | .tuple l => (interpolateSlots env rec values l).map .tuple
    | _ => .error .cannotInterpolate
  | .union _ fields => interpolateUnion env fields
  | .structure _ defn _ _ =>
    match v with
    | .dict d => (interpolateMembers env rec d defn).map .dict
    | _ => .error .cannotInterpolate
  | .poly _ disc variants _ _ =>
    match v with
    | .dict d =>
      match dictGet d (.str (disc.name.getD [])) with
      | none => .error (.py .keyError)
      | some id =>
        if id.truthy then do
          let defn ← variantAt variants id
          (interpolateMembers env rec d defn).map .dict
        else (interpolateIdentities d variants).map .dict
    | _ => .error .cannotInterpolate
  | .undef _ => .error (.py .attributeError)

/-- One call of `field.interpolate(subject, parameters, interpolator)`. -/
def interpolateStep (env : Env) (t : Templates) (rec : Ext) : Ext := fun f v =>
  match f with
  | .undef _ => .error (.py .attributeError)
  | .leaf _ k => if v.isNone then .ok .none else interpolateLeaf env t k v
  | f =>
    if v.isNone then .ok .none
    else do
      let x ← if v.isStr then interpolateParams env t true v else .ok v
      interpolateBody env rec f x

/-- `field.interpolate(subject, parameters, interpolator)` with `n` levels of call depth. -/
def interpolate (env : Env) (t : Templates) : Nat → Ext
  | 0 => fun _ _ => .error (.py .recursionError)
  | n + 1 => interpolateStep env t (interpolate env t n)

end Scheme
