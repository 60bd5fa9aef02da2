import Verif.Model.Process

/-! Asking a field about its children: has_required_fields, polymorphic and get. -/

namespace Scheme

/-- The loop of Structure.has_required_fields (structure.py:132-136); the attributes of a placeholder without
definition cannot be asked for. -/
def anyRequired (env : Env) : List (Str × Field) → Except PyErr Bool
  | [] => .ok false
  | (_, f) :: r =>
    match (resolve env f).bind (·.common?) with
    | none => .error .attributeError
    | some c => if c.required && c.default.isNone then .ok true else anyRequired env r

/-- Structure.has_required_fields (structure.py:125-136); other fields have no such attribute. -/
def hasRequiredFields (env : Env) : Field → Except PyErr Bool
  | .poly .. => .ok true
  | .structure _ defn _ _ => anyRequired env defn
  | _ => .error .attributeError

/-- Structure.polymorphic (structure.py:138-142) -/
def isPolymorphic : Field → Except PyErr Bool
  | .poly .. => .ok true
  | .structure .. => .ok false
  | _ => .error .attributeError

/-- What `get` finds: a field, the fields of a polymorphic identity (a dict), or the default that was passed. -/
inductive Got
  | field (f : Field)
  | variant (d : List (Str × Field))
  | default

/-- A child, or the default. -/
def Got.of : Option Field → Got
  | some f => .field f
  | none => .default

/-- `self.values[key]` for a number, and IndexError caught (tuple.py:119-123). -/
def tupleAt (values : List Field) (i : Int) : Got :=
  let j := if i < 0 then i + values.length else i
  if j < 0 then .default
  else Got.of values[j.toNat]?

/-- `get` (field.py:384-388, structure.py:271-272, tuple.py:119-123).  Simplification: keys are no slices. -/
def getChild (f : Field) (key : Val) : Except PyErr Got :=
  match f with
  | .structure _ defn _ _ =>
    if hashable key then
      match key with
      | .str s => .ok (Got.of (defn.lookup s))
      | _ => .ok .default
    else .error .typeError
  | .poly _ _ variants _ _ =>
    if hashable key then .ok (match variantGet variants key with | some d => .variant d | none => .default)
    else .error .typeError
  | .tuple _ values =>
    match key with
    | .int i => .ok (tupleAt values i)
    | .bool b => .ok (tupleAt values (if b then 1 else 0))
    | _ => .error .typeError
  | .undef _ => .error .attributeError
  | _ => .error .typeError

end Scheme
