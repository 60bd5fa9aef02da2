import Verif.Model.Interpolate

/-! Surrogates (scheme/surrogate.py). -/

namespace Scheme

/-- A surrogate class (surrogate.py:14-35).  `schemas` is empty for `None`.  `tag` is the class attribute `surrogate`:
`SurrogateMeta` sets it (surrogate.py:9-11), but only where Python honours `__metaclass__` (surrogate.py:28), which
Python 3 does not; there it is absent unless the class sets it itself.  Simplification: `contribute` is the inherited
one, which does nothing (surrogate.py:98-100), and imported objects are surrogate classes. -/
structure SurrCls where
  schemas : List Field
  tag : Option Str

/-- A surrogate instance (surrogate.py:32-35): its class, contents, dynamic schema and version. -/
structure Surr where
  cls : SurrCls
  items : List (Val × Val)
  schema : Option Field
  version : Val

/-- What surrogates use from elsewhere: `import_object(token)` (`none` is ImportError; it keeps answering the same, so
the cache of surrogate.py:149-157 is not visible), the class `surrogate` itself (without schemas),
`schema.describe()` and `Field.reconstruct(description)`. -/
structure SurrEnv where
  imports : Str → Option SurrCls
  baseTag : Option Str
  describe : Field → Except Exn Val
  reconstruct : Val → Except Exn Field

/-- The class `surrogate` (surrogate.py:14, 30) -/
def SurrEnv.base (s : SurrEnv) : SurrCls := ⟨[], s.baseTag⟩

/-- `l[i]` (IndexError is `none`): negative positions count from the end. -/
def pyIndex {α : Type} (l : List α) (i : Int) : Option α :=
  if 0 ≤ i then l[i.toNat]?
  else if 0 ≤ i + l.length then l[(i + l.length).toNat]?
  else none

/-- `version - 1` as an index; `none` is TypeError (None, text, floats, ...). -/
def versionNumber : Val → Option Int
  | .int i => some i
  | .bool b => some (if b then 1 else 0)
  | _ => none

/-- `schemas[version - 1]`, `bad` being raised where the caller handles IndexError. -/
def schemaAt (schemas : List Field) (bad : Exn) (version : Val) : Except Exn Field :=
  match versionNumber version with
  | none => .error (.py .typeError)
  | some k =>
    match pyIndex schemas (k - 1) with
    | some f => .ok f
    | none => .error bad

/-- `value[key] = x` on the result of a serialization; TypeError unless it is a dict. -/
def setItem (v : Val) (key : Str) (x : Val) : Except Exn Val :=
  match v with
  | .dict d => .ok (.dict (dictSet d (.str key) x))
  | _ => .error (.py .typeError)

/-- `value['_'] = self.surrogate` -/
def setTag (tag : Option Str) (v : Val) : Except Exn Val :=
  match tag with
  | some t => setItem v c!"_" (.str t)
  | none => .error (.py .attributeError)

/-- `if self.version > 1: value['__version__'] = self.version` -/
def setVersion (version : Val) (v : Val) : Except Exn Val :=
  match versionNumber version with
  | some k => if 1 < k then setItem v c!"__version__" version else .ok v
  | none => .error (.py .typeError)

/-- surrogate.serialize (surrogate.py:114-127) -/
def Surr.serialize (env : Env) (se : SurrEnv) (n : Nat) (s : Surr) : Except Exn Val :=
  match s.schema with
  | some sch => do
    let v ← process env n sch (.dict s.items) .outbound true []
    let d ← se.describe sch
    let v ← setItem v c!"__schema__" d
    setTag s.cls.tag v
  | none =>
    if s.cls.schemas.isEmpty then setTag s.cls.tag (.dict s.items)
    else do
      let sch ← schemaAt s.cls.schemas (.py .indexError) s.version
      let v ← process env n sch (.dict s.items) .outbound true []
      let v ← setVersion s.version v
      setTag s.cls.tag v

/-- _get_implementation (surrogate.py:145-158).  A token that is not text cannot be imported. -/
def SurrEnv.implementation (se : SurrEnv) : Val → Except Exn SurrCls
  | .none => .ok se.base
  | .str t => .ok ((se.imports t).getD se.base)
  | v => if hashable v then .ok se.base else .error (.py .typeError)

/-- `value.pop(key, default)`: the value and what is left. -/
def popItem (d : List (Val × Val)) (key : Str) (default : Val) : Val × List (Val × Val) :=
  ((dictGet d (.str key)).getD default, dictDel d (.str key))

/-- `cls(value, schema, version)` (surrogate.py:32-35); TypeError unless the value is a dict (simplification: `dict()`
also takes a sequence of pairs). -/
def makeSurr (cls : SurrCls) (v : Val) (schema : Option Field) (version : Val) : Except Exn Surr :=
  match v with
  | .dict d => .ok ⟨cls, d, schema, version⟩
  | _ => .error (.py .typeError)

/-- _unserialize_versioned_surrogate (surrogate.py:198-207) -/
def unserializeVersioned (env : Env) (n : Nat) (cls : SurrCls) (d : List (Val × Val)) (anc : List Str) :
    Except Exn Surr := do
  let (version, d) := popItem d c!"__version__" (.int 1)
  let sch ← schemaAt cls.schemas (.py .valueError) version
  let v ← process env n sch (.dict d) .inbound true anc
  makeSurr cls v none version

/-- _unserialize_dynamic_surrogate (surrogate.py:185-196); a field is true -/
def unserializeDynamic (env : Env) (se : SurrEnv) (n : Nat) (cls : SurrCls) (d : List (Val × Val)) (anc : List Str) :
    Except Exn Surr := do
  let (desc, d) := popItem d c!"__schema__" .none
  if !desc.truthy then .error (.py .valueError)
  else do
    let sch ← se.reconstruct desc
    let v ← process env n sch (.dict d) .inbound true anc
    makeSurr cls v (some sch) .none

/-- surrogate.unserialize (surrogate.py:129-139) -/
def unserializeSurr (env : Env) (se : SurrEnv) (n : Nat) (d : List (Val × Val)) (anc : List Str) : Except Exn Surr := do
  let (token, d) := popItem d c!"_" .none
  let cls ← se.implementation token
  if (dictGet d (.str c!"__schema__")).isSome then unserializeDynamic env se n cls d anc
  else if !cls.schemas.isEmpty then unserializeVersioned env n cls d anc
  else makeSurr cls (.dict d) none .none

/-- `version is None` → the latest version (surrogate.py:72-73, 173-174). -/
def latest (cls : SurrCls) : Val → Val
  | .none => .int cls.schemas.length
  | v => v

/-- _interpolate_versioned_surrogate (surrogate.py:170-183) -/
def interpolateVersioned (interp : Ext) (cls : SurrCls) (d : List (Val × Val)) : Except Exn Surr := do
  let (version, d) := popItem d c!"__version__" .none
  let version := latest cls version
  let sch ← schemaAt cls.schemas (.py .valueError) version
  let v ← interp sch (.dict d)
  makeSurr cls v none version

/-- _interpolate_dynamic_surrogate (surrogate.py:160-168) -/
def interpolateDynamic (se : SurrEnv) (interp : Ext) (cls : SurrCls) (d : List (Val × Val)) : Except Exn Surr := do
  let (desc, d) := popItem d c!"__schema__" .none
  let sch ← se.reconstruct desc
  let v ← interp sch (.dict d)
  makeSurr cls v (some sch) .none

/-- surrogate.interpolate (surrogate.py:102-112); `interp` is `schema.interpolate` with the parameters of the call. -/
def interpolateSurr (se : SurrEnv) (interp : Ext) (d : List (Val × Val)) : Except Exn Surr := do
  let (token, d) := popItem d c!"_" .none
  let cls ← se.implementation token
  if (dictGet d (.str c!"__schema__")).isSome then interpolateDynamic se interp cls d
  else if !cls.schemas.isEmpty then interpolateVersioned interp cls d
  else .error (.py .valueError)

/-- `value.update(params)` -/
def updateItems (d : List (Val × Val)) (params : List (Str × Val)) : List (Val × Val) :=
  params.foldl (fun d p => dictSet d (.str p.1) p.2) d

/-- The schema surrogate.construct uses and the version it records (surrogate.py:67-77).  `Exception` is `other 0`. -/
def constructSchema (cls : SurrCls) (schema : Option Field) (version : Val) : Except Exn (Option Field × Val) :=
  match schema with
  | some f => if cls.schemas.isEmpty then .ok (some f, version) else .error (.py (.other 0))
  | none =>
    if cls.schemas.isEmpty then .ok (none, version)
    else do
      let version := latest cls version
      let f ← schemaAt cls.schemas (.py (.other 0)) version
      return (some f, version)

/-- The value surrogate.construct stores (surrogate.py:79-93); `extr` is `schema.extract(value)`, strictly or
not.  Simplification: a surrogate given as value is not treated as the dict it is. -/
def constructValue (extr : Bool → Ext) (schema : Option Field) (value : Option Val) (params : List (Str × Val)) : Except Exn Val :=
  match value with
  | none => if params.isEmpty then .error (.py .valueError) else .ok (.dict (updateItems [] params))
  | some v => do
    let w ← match v, schema with
      | .dict d, some f => extr true f (.dict d)
      | .dict d, none => .ok (.dict d)
      | v, some f => extr false f v
      | _, none => .error (.py .valueError)
    match w with
    | .dict d => .ok (.dict (updateItems d params))
    | w => if params.isEmpty then .ok w else .error (.py .attributeError)

/-- surrogate.construct with the class given (surrogate.py:55-96); a value of `None` is no value. -/
def constructSurr (extr : Bool → Ext) (cls : SurrCls) (value : Option Val) (schema : Option Field) (version : Val)
    (params : List (Str × Val)) : Except Exn Surr := do
  let (effective, version) ← constructSchema cls schema version
  let v ← constructValue extr effective value params
  makeSurr cls v schema version

end Scheme
