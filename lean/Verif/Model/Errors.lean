import Verif.Model.Val

/-! `StructuralError` (scheme/exceptions.py:34-201). -/

namespace Scheme

/-- exceptions.py:168-176: non-dict entries are wrapped as `{'message': entry}`. -/
def serErr : Val → Val
  | .dict d => .dict d
  | v => .dict [(.str c!"message", v)]

def serErrs (l : List Val) : List Val := l.map serErr

mutual
/-- `_serialize_structure` (exceptions.py:178-201): `None` when the structure is neither a list nor
a dict. -/
def serStruct : Val → Val
  | .list l => .list (serStructL l)
  | .dict d => .dict (serStructD d)
  | _ => .none
/-- exceptions.py:180-191 -/
def serStructL : List Val → List Val
  | [] => []
  | v :: r => (serItem v).getD .none :: serStructL r
/-- exceptions.py:192-201 -/
def serStructD : List (Val × Val) → List (Val × Val)
  | [] => []
  | (k, v) :: r =>
    match serItem v with
    | some x => (k, x) :: serStructD r
    | none => serStructD r
/-- One child: only `StructuralError` children contribute. -/
def serItem : Val → Option Val
  | .exc _ _ errs st _ => some (if st.isNone then .list (serErrs errs) else serStruct st)
  | _ => none
end

/-- `serialize(force=True)` (exceptions.py:108-126), the pair `(errors, structure)`. -/
def serializeErr (errs : List Val) (st : Val) : Val :=
  .tuple [if errs.isEmpty then .none else .list (serErrs errs),
    if st.truthy then serStruct st else .none]

/-- A StructuralError object over time (exceptions.py:58-126): its errors, its structure and the cached
serialization `_serialized_errors`.  Simplification: nested errors do not change after they were attached. -/
structure ErrObj where
  errors : List Val
  struct : Val
  cache : Option Val := none

/-- Calls on a StructuralError. -/
inductive ErrOp
  /-- `append(error)` (exceptions.py:76-78) -/
  | append (x : Val)
  /-- `attach(structure)` (exceptions.py:80-82) -/
  | attach (st : Val)
  /-- `merge(exception)` (exceptions.py:104-106), given the errors of the other exception -/
  | merge (xs : List Val)
  /-- `serialize(force)` (exceptions.py:108-126) -/
  | serialize (force : Bool)

/-- One call: the new state and, for `serialize`, the returned pair. -/
def ErrOp.run (o : ErrObj) : ErrOp → ErrObj × Option Val
  | .append x => ({ o with errors := o.errors ++ [x] }, none)
  | .attach st => ({ o with struct := st }, none)
  | .merge xs => ({ o with errors := o.errors ++ xs }, none)
  | .serialize force =>
    match force, o.cache with
    | false, some r => (o, some r)
    | _, _ => let r := serializeErr o.errors o.struct; ({ o with cache := some r }, some r)

/-- The state after a history of calls. -/
def ErrObj.after (o : ErrObj) : List ErrOp → ErrObj
  | [] => o
  | op :: r => (op.run o).1.after r

/-- `StructuralError.unserialize((errors, structure))` (exceptions.py:128-131): `errors` is
star-expanded, so it must be iterable. -/
def unserializeErr (errors struct : Val) : Except PyErr Val :=
  let mk (es : List Val) : Val := .exc .structural [c!"(unknown)"] es struct .none
  match errors with
  | .list l => .ok (mk l)
  | .tuple l => .ok (mk l)
  | .dict d => .ok (mk (d.map (·.1)))
  | .str s => .ok (mk (s.map fun c => .str [c]))
  | .bytes b => .ok (mk (b.map fun c => .int c.val))
  | _ => .error .typeError

end Scheme
