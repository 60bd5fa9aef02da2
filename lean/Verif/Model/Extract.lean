import Verif.Model.Process

/-! `extract`, `instantiate` and `screen` of all field types. -/

namespace Scheme

/-- What `extract`, `instantiate`, `screen` and `filter` consult outside the library. -/
structure Outer where
  /-- attributes of a field object other than the common ones: methods, class attributes, type specific
  instance attributes -/
  attr : Field → Str → Option Val
  /-- user extractors, called with the field and the subject -/
  ext : Nat → Field → Val → Except Exn Val
  /-- user instantiators, called with the field, the value and the key -/
  inst : Nat → Field → Val → Val → Except Exn Val
  /-- `getattr(subject, name)` for subjects that are not dicts -/
  getattr : Val → Val → Except PyErr Val

/-- Keyword parameters. -/
abbrev Params := List (Str × Val)

/-- An optional text as a value. -/
def optStr : Option Str → Val
  | some s => .str s
  | none => .none

/-- The attributes set by `Field.__init__` (field.py:189-200), apart from callables and `aspects`. -/
def commonAttr (c : Common) (name : Str) : Option Val :=
  if name = c!"name" then some (optStr c.name)
  else if name = c!"default" then some c.default
  else if name = c!"constant" then some c.constant
  else if name = c!"nonnull" then some (.bool c.nonnull)
  else if name = c!"ignore_null" then some (.bool c.ignoreNull)
  else if name = c!"required" then some (.bool c.required)
  else if name = c!"description" then some c.description
  else if name = c!"title" then some c.title
  else if name = c!"notes" then some c.notes
  else none

/-- `getattr(field, name, None)` with `Field.__getattr__` (field.py:237-244): own and class attributes, then
aspects, then None. -/
def attrOf (o : Outer) (f : Field) (name : Str) : Val :=
  match f.common? with
  | none => ((o.attr f name).getD .none)
  | some c =>
    match commonAttr c name with
    | some v => v
    | none =>
      match o.attr f name with
      | some v => v
      | none => (c.aspects.lookup name).getD .none

/-- Field.screen (field.py:484-493) -/
def screen (o : Outer) (f : Field) : Params → Bool
  | [] => true
  | (attr, value) :: r =>
    if !value.isNone && !pyEq (attrOf o f attr) value then false else screen o f r

/-- `params and not self.screen(**params)` (field.py:351, and the other `extract` methods) -/
def excluded (o : Outer) (f : Field) (params : Params) : Bool := !params.isEmpty && !screen o f params

/-- A recursive `extract`. -/
abbrev Ext := Field → Val → Except Exn Val

/-- `definition.extract(value, strict, **params)` in a container, with its `except AttributeError` clause
(e.g. sequence.py:101-109). -/
def extractChild (env : Env) (rec : Ext) (f : Field) (v : Val) : Except Exn Val :=
  match resolve env f with
  | none => .error .undefinedField
  | some g => rec g v

/-- `except FieldExcludedError: pass` -/
def notExcluded : Except Exn Val → Except Exn (Option Val)
  | .ok v => .ok (some v)
  | .error .excluded => .ok none
  | .error e => .error e

/-- The loop of Sequence.extract (sequence.py:101-109). -/
def extractItems (env : Env) (rec : Ext) (item : Field) : List Val → Except Exn (List Val)
  | [] => .ok []
  | v :: r => do
    let x ← notExcluded (extractChild env rec item v)
    let r' ← extractItems env rec item r
    return match x with
      | some w => w :: r'
      | none => r'

/-- The loop of Map.extract (map.py:109-118).  The keys of a dict are distinct, so that every assignment
appends. -/
def extractEntries (env : Env) (rec : Ext) (value : Field) : List (Val × Val) → Except Exn (List (Val × Val))
  | [] => .ok []
  | (k, v) :: r => do
    let x ← notExcluded (extractChild env rec value v)
    let r' ← extractEntries env rec value r
    return match x with
      | some w => (k, w) :: r'
      | none => r'

/-- The loop of Tuple.extract (tuple.py:85-94): `subject[i]` raises IndexError when there are fewer values
than fields; further values are ignored. -/
def extractSlots (env : Env) (rec : Ext) : List Field → List Val → Except Exn (List Val)
  | [], _ => .ok []
  | _ :: _, [] => .error (.py .indexError)
  | f :: fs, v :: r => do
    let x ← notExcluded (extractChild env rec f v)
    let r' ← extractSlots env rec fs r
    return match x with
      | some w => w :: r'
      | none => r'

/-- The getter used by Structure.extract (structure.py:197-202): item access on dicts, else, unless strict,
attribute access. -/
def getMember (o : Outer) (subject : Val) (name : Val) : Except PyErr Val :=
  match subject with
  | .dict d => match dictGet d name with
    | some v => .ok v
    | none => .error .keyError
  | v => o.getattr v name

/-- The value of a member, if it is there and not None (structure.py:208-213). -/
def memberValue (o : Outer) (subject : Val) (name : Val) : Except Exn (Option Val) :=
  match getMember o subject name with
  | .ok .none => .ok none
  | .ok v => .ok (some v)
  | .error .attributeError => .ok none
  | .error .keyError => .ok none
  | .error e => .error (.py e)

/-- The loop of Structure.extract (structure.py:207-223).  Names are distinct, so that every assignment
appends. -/
def extractMembers (env : Env) (o : Outer) (rec : Ext) (subject : Val) :
    List (Str × Field) → Except Exn (List (Val × Val))
  | [] => .ok []
  | (name, f) :: r => do
    match ← memberValue o subject (.str name) with
    | none => extractMembers env o rec subject r
    | some v =>
      let x ← notExcluded (extractChild env rec f v)
      let r' ← extractMembers env o rec subject r
      return match x with
        | some w => (.str name, w) :: r'
        | none => r'

/-- The same loop when the identity is falsy: `_get_definition` returns the mapping of identities
(structure.py:545-550), whose values are dicts without an `extract` method. -/
def extractIdentities (o : Outer) (subject : Val) : List (Val × List (Str × Field)) → Except Exn Unit
  | [] => .ok ()
  | (i, _) :: r => do
    match ← memberValue o subject i with
    | none => extractIdentities o subject r
    | some _ => throw (.py .attributeError)

/-- `self.structure[identity]` (structure.py:548) -/
def variantAt (variants : List (Val × List (Str × Field))) (id : Val) : Except Exn (List (Str × Field)) :=
  if hashable id then
    match variantGet variants id with
    | some d => .ok d
    | none => .error (.py .keyError)
  else .error (.py .typeError)

/-- The extractor call of the containers (e.g. sequence.py:88-92): every exception becomes
CannotExtractError. -/
def extractor (o : Outer) (f : Field) (h : Option Nat) (v : Val) : Except Exn Val :=
  match h with
  | none => .ok v
  | some h => match o.ext h f v with
    | .ok w => .ok w
    | .error _ => .error .cannotExtract

/-- The extractor call of Union, whose exceptions are not converted (union.py:60-61). -/
def unionExtractor (o : Outer) (f : Field) (h : Option Nat) (v : Val) : Except Exn Val :=
  match h with
  | none => .ok v
  | some h => o.ext h f v

/-- The loop of Union.extract (union.py:63-74). -/
def extractUnion (env : Env) (rec : Ext) (v : Val) : List Field → Except Exn Val
  | [] => .error .cannotExtract
  | f :: fs =>
    match extractChild env rec f v with
    | .error .cannotExtract => extractUnion env rec v fs
    | r => r

/-- Structure.extract after the extractor, for a plain structure (structure.py:197-225). -/
def extractPlain (env : Env) (o : Outer) (rec : Ext) (defn : List (Str × Field)) (strict : Bool) (subject : Val) :
    Except Exn Val :=
  match subject with
  | .dict d => (extractMembers env o rec (.dict d) defn).map .dict
  | v => if strict then .error .cannotExtract else (extractMembers env o rec v defn).map .dict

/-- The same for a polymorphic structure (structure.py:197-225, 545-555). -/
def extractPoly (env : Env) (o : Outer) (rec : Ext) (dname : Str) (variants : List (Val × List (Str × Field)))
    (strict : Bool) (subject : Val) : Except Exn Val :=
  let go : Except Exn Val :=
    match getMember o subject (.str dname) with
    | .error e => .error (.py e)
    | .ok id =>
      if id.truthy then do
        let defn ← variantAt variants id
        (extractMembers env o rec subject defn).map .dict
      else (extractIdentities o subject variants).map fun _ => .dict []
  match subject with
  | .dict _ => go
  | _ => if strict then .error .cannotExtract else go

/-- Sequence.extract after the extractor (sequence.py:94-111). -/
def extractSequence (env : Env) (rec : Ext) (item : Field) : Val → Except Exn Val
  | .list l => (extractItems env rec item l).map .list
  | .tuple l => (extractItems env rec item l).map .list
  | _ => .error .cannotExtract

/-- Tuple.extract after the extractor (tuple.py:81-96). -/
def extractTuple (env : Env) (rec : Ext) (values : List Field) : Val → Except Exn Val
  | .list l => (extractSlots env rec values l).map .tuple
  | .tuple l => (extractSlots env rec values l).map .tuple
  | _ => .error .cannotExtract

/-- Map.extract after the extractor (map.py:103-120). -/
def extractMap (env : Env) (rec : Ext) (value : Field) : Val → Except Exn Val
  | .dict d => (extractEntries env rec value d).map .dict
  | _ => .error .cannotExtract

/-- What `field.extract` does with a subject that is not None, once the extractor has been applied. -/
def extractBody (env : Env) (o : Outer) (strict : Bool) (rec : Ext) (f : Field) (w : Val) : Except Exn Val :=
  match f with
  | .leaf .. => .ok w
  | .sequence _ item .. => extractSequence env rec item w
  | .map _ _ value _ => extractMap env rec value w
  | .tuple _ values => extractTuple env rec values w
  | .union _ fields => extractUnion env rec w fields
  | .structure _ defn _ _ => extractPlain env o rec defn strict w
  | .poly _ disc variants _ _ => extractPoly env o rec (disc.name.getD []) variants strict w
  | .undef _ => .error (.py .attributeError)

/-- The extractor call of each field type. -/
def applyExtractor (o : Outer) (f : Field) (v : Val) : Except Exn Val :=
  match f with
  | .union c _ => unionExtractor o f c.extor v
  | f => extractor o f (f.common?.bind (·.extor)) v

/-- One call of `field.extract(subject, strict, **params)` (field.py:327-360, structure.py:184-225,
map.py:90-120, sequence.py:81-111, tuple.py:68-96, union.py:54-74). -/
def extractStep (env : Env) (o : Outer) (strict : Bool) (params : Params) (rec : Ext) : Ext := fun f v =>
  match f with
  | .undef _ => .error (.py .attributeError)
  | f =>
    if excluded o f params then .error .excluded
    else if v.isNone then .ok .none
    else do
      let w ← applyExtractor o f v
      extractBody env o strict rec f w

/-- `field.extract(subject, strict, **params)` with `n` levels of call depth. -/
def extract (env : Env) (o : Outer) (strict : Bool) (params : Params) : Nat → Ext
  | 0 => fun _ _ => .error (.py .recursionError)
  | n + 1 => extractStep env o strict params (extract env o strict params n)

/-! ### instantiate -/

/-- A recursive `instantiate(value, key)`; `none` when no key is passed. -/
abbrev Inst := Field → Val → Option Val → Except Exn Val

/-- `definition.instantiate(...)` in a container. -/
def instChild (env : Env) (rec : Inst) (f : Field) (v : Val) (key : Option Val) : Except Exn Val :=
  match resolve env f with
  | none => .error .undefinedField
  | some g => rec g v key

/-- `for v in value` (sequence.py:130).  Iterating a value of another type raises TypeError; surrogates and
objects are taken as not iterable. -/
def iterate : Val → Except Exn (List Val)
  | .list l => .ok l
  | .tuple l => .ok l
  | .str s => .ok (s.map fun ch => .str [ch])
  | .bytes b => .ok (b.map fun x => .int x.val)
  | .dict d => .ok (d.map (·.1))
  | _ => .error (.py .typeError)

/-- The loop of Sequence.instantiate (sequence.py:129-137). -/
def instItems (env : Env) (rec : Inst) (item : Field) : List Val → Except Exn (List Val)
  | [] => .ok []
  | v :: r => do
    let x ← instChild env rec item v none
    let r' ← instItems env rec item r
    return x :: r'

/-- `value[i]` (tuple.py:132). -/
def indexAt (value : Val) (i : Nat) : Except Exn Val :=
  match value with
  | .list l => match l[i]? with
    | some v => .ok v
    | none => .error (.py .indexError)
  | .tuple l => match l[i]? with
    | some v => .ok v
    | none => .error (.py .indexError)
  | .str s => match s[i]? with
    | some ch => .ok (.str [ch])
    | none => .error (.py .indexError)
  | .bytes b => match b[i]? with
    | some x => .ok (.int x.val)
    | none => .error (.py .indexError)
  | .dict d => match dictGet d (.int i) with
    | some v => .ok v
    | none => .error (.py .keyError)
  | _ => .error (.py .typeError)

/-- The loop of Tuple.instantiate (tuple.py:129-137). -/
def instSlots (env : Env) (rec : Inst) (value : Val) : Nat → List Field → Except Exn (List Val)
  | _, [] => .ok []
  | i, f :: fs => do
    let v ← indexAt value i
    let x ← instChild env rec f v none
    let r' ← instSlots env rec value (i + 1) fs
    return x :: r'

/-- The loop of Map.instantiate (map.py:139-148). -/
def instEntries (env : Env) (rec : Inst) (value : Field) : List (Val × Val) → Except Exn (List (Val × Val))
  | [] => .ok []
  | (k, v) :: r => do
    let x ← instChild env rec value v (some k)
    let r' ← instEntries env rec value r
    return (k, x) :: r'

/-- `definition[k]` (structure.py:300) -/
def fieldAt (defn : List (Str × Field)) (k : Val) : Except Exn Field :=
  match k with
  | .str s => match defn.lookup s with
    | some f => .ok f
    | none => .error (.py .keyError)
  | _ => .error (.py .keyError)

/-- The loop of Structure.instantiate (structure.py:298-305). -/
def instMembers (env : Env) (rec : Inst) (defn : List (Str × Field)) : List (Val × Val) → Except Exn (List (Val × Val))
  | [] => .ok []
  | (k, v) :: r => do
    let f ← fieldAt defn k
    let x ← instChild env rec f v (some k)
    let r' ← instMembers env rec defn r
    return (k, x) :: r'

/-- The first iteration of the same loop when the identity is falsy: `definition` maps identities to dicts,
which have no `instantiate` method. -/
def instIdentities (variants : List (Val × List (Str × Field))) : List (Val × Val) → Except Exn (List (Val × Val))
  | [] => .ok []
  | (k, _) :: _ =>
    match variantGet variants k with
    | some _ => .error (.py .attributeError)
    | none => .error (.py .keyError)

/-- Field.instantiate (field.py:390-406) -/
def instOwn (o : Outer) (f : Field) (v : Val) (key : Option Val) : Except Exn Val :=
  match f.common?.bind (·.instor) with
  | some h => if v.isNone then .ok v else o.inst h f v (key.getD .none)
  | none => .ok v

/-- The children part of `field.instantiate`, for a value that is not None. -/
def instBody (env : Env) (rec : Inst) (f : Field) (v : Val) : Except Exn Val :=
  match f with
  | .leaf .. => .ok v
  | .sequence _ item .. => do
    let l ← iterate v
    (instItems env rec item l).map .list
  | .map _ _ value _ =>
    match v with
    | .dict d => (instEntries env rec value d).map .dict
    | _ => .error (.py .attributeError)
  | .tuple _ values => (instSlots env rec v 0 values).map .tuple
  | .union .. => .error (.py .notImplemented)
  | .structure _ defn _ _ =>
    match v with
    | .dict d => (instMembers env rec defn d).map .dict
    | _ => .error (.py .attributeError)
  | .poly _ disc variants _ _ =>
    match v with
    | .dict d =>
      match dictGet d (.str (disc.name.getD [])) with
      | none => .error (.py .keyError)
      | some id =>
        if id.truthy then do
          let defn ← variantAt variants id
          (instMembers env rec defn d).map .dict
        else (instIdentities variants d).map .dict
    | _ => .error (.py .typeError)
  | .undef _ => .error (.py .attributeError)

/-- One call of `field.instantiate(value, key)` (field.py:390-406, structure.py:291-307, map.py:134-150,
sequence.py:125-139, tuple.py:125-139, union.py:76-77).  Union.instantiate takes no key and always raises, also
for None.  Simplification: subscripting a value that is neither dict, list, tuple nor text is a TypeError. -/
def instStep (env : Env) (o : Outer) (rec : Inst) : Inst := fun f v key =>
  match f with
  | .undef _ => .error (.py .attributeError)
  | .union .. => match key with
    | some _ => .error (.py .typeError)
    | none => .error (.py .notImplemented)
  | f =>
    if v.isNone then .ok .none
    else do
      let w ← instBody env rec f v
      instOwn o f w key

/-- `field.instantiate(value, key)` with `n` levels of call depth. -/
def instantiate (env : Env) (o : Outer) : Nat → Inst
  | 0 => fun _ _ _ => .error (.py .recursionError)
  | n + 1 => instStep env o (instantiate env o n)

end Scheme
