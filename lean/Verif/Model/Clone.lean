import Verif.Model.Process

/-! `Field.clone` and the constructors it calls (scheme/field.py:250-265). -/

namespace Scheme

/-- `d[k] = v` for a dict with text keys. -/
def keySet {α : Type} (k : Str) (v : α) : List (Str × α) → List (Str × α)
  | [] => [(k, v)]
  | (k', v') :: r => if k' = k then (k', v) :: r else (k', v') :: keySet k v r

/-- `', '.join(repr(value) for value in enumeration)` (enumeration.py:41) -/
def enumRepr (env : Env) : List Val → Str
  | [] => []
  | [v] => env.repr v
  | v :: r => env.repr v ++ c!", " ++ enumRepr env r

/-- Attributes a clone gets as an aspect because its constructor does not know them as parameters: the
`representation` of an Enumeration (enumeration.py:41, field.py:210-212).  Simplification: the `timezone` of
a DateTime becomes an aspect in the same way; it is not represented. -/
def cloneAspects (env : Env) : Leaf → List (Str × Val) → List (Str × Val)
  | .enumeration vals _, a => keySet c!"representation" (.str (enumRepr env vals)) a
  | _, a => a

/-- `if not field.name: field.name = name` (structure.py:572-573) -/
def nameMember (name : Str) (f : Field) : Field :=
  f.setCommon fun c => match c.name with
    | some (_ :: _) => c
    | _ => { c with name := some name }

def Leaf.isEmail : Leaf → Bool
  | .email .. => true
  | _ => false

/-- `Field.__init__` with the `errors` of an existing instance (field.py:205-208): they are a dict there, and
iterating it gives tokens instead of errors, so that `error.token` raises AttributeError.  Email replaces
its errors (email.py:30-49). -/
def initErrors (isEmail : Bool) (c : Common) (f : Field) : Except PyErr Field :=
  if !isEmail && !c.errors.isEmpty then .error .attributeError else .ok f

/-- Deep copying a child.  A placeholder without definition refers back to its holder through its callbacks,
so copying it clones the holder again, without end (field.py:234-235, 633-634). -/
def cloneChild (env : Env) (rec : Field → Except PyErr Field) (f : Field) : Except PyErr Field :=
  match resolve env f with
  | none => .error .recursionError
  | some g => rec g

/-- The copied key field of a Map; it is never a placeholder (map.py:53-54). -/
def cloneKey (rec : Field → Except PyErr Field) : Option Field → Except PyErr (Option Field)
  | some k => (rec k).map some
  | none => .ok none

def cloneList (env : Env) (rec : Field → Except PyErr Field) : List Field → Except PyErr (List Field)
  | [] => .ok []
  | f :: r => do
    let f' ← cloneChild env rec f
    let r' ← cloneList env rec r
    return f' :: r'

/-- The copied members, named by their keys. -/
def cloneDefn (env : Env) (rec : Field → Except PyErr Field) : List (Str × Field) → Except PyErr (List (Str × Field))
  | [] => .ok []
  | (name, f) :: r => do
    let f' ← cloneChild env rec f
    let r' ← cloneDefn env rec r
    return (name, nameMember name f') :: r'

/-- `field.clone(constant=identity)` for a field that can be cloned; only the constant and the aspects of an
Enumeration differ. -/
def discFor (env : Env) (disc : Field) (id : Val) : Field :=
  match disc with
  | .leaf c k => .leaf { c with constant := id, aspects := cloneAspects env k c.aspects } k
  | f => f.setCommon fun c => { c with constant := id }

/-- The copied variants; the constructor stores the discriminator again (structure.py:97-100). -/
def cloneVariants (env : Env) (rec : Field → Except PyErr Field) (disc : Field) :
    List (Val × List (Str × Field)) → Except PyErr (List (Val × List (Str × Field)))
  | [] => .ok []
  | (i, defn) :: r => do
    let d' ← cloneDefn env rec defn
    let r' ← cloneVariants env rec disc r
    return (i, keySet (disc.name.getD []) (discFor env disc i) d') :: r'

/-- One call of `field.clone()`, children copied by `rec`.  Simplifications: copying a value (default, constant,
aspects, bounds, callables) gives an equal value; bounds of a DateTime are in its zone already, so that
normalising them again changes nothing. -/
def cloneStep (env : Env) (rec : Field → Except PyErr Field) : Field → Except PyErr Field
  | .leaf c k => initErrors k.isEmail c
      (.leaf { c with aspects := cloneAspects env k c.aspects } k)
  | .sequence c item mn mx u => do
    let item' ← cloneChild env rec item
    initErrors false c (.sequence c item' mn mx u)
  | .map c key value req => do
    let key' ← cloneKey rec key
    let value' ← cloneChild env rec value
    initErrors false c (.map c key' value' req)
  | .tuple c values => do
    let values' ← cloneList env rec values
    initErrors false c (.tuple c values')
  | .union c fields => do
    let fields' ← cloneList env rec fields
    initErrors false c (.union c fields')
  | .structure c defn s ko => do
    let defn' ← cloneDefn env rec defn
    initErrors false c (.structure c defn' s ko)
  | .poly c disc variants s ko => do
    let disc' ← rec disc
    let variants' ← cloneVariants env rec disc' variants
    initErrors false c (.poly c disc' variants' s ko)
  | .undef _ => .error .attributeError

/-- `field.clone()` with `n` levels of call depth available. -/
def clone (env : Env) : Nat → Field → Except PyErr Field
  | 0, _ => .error .recursionError
  | n + 1, f => cloneStep env (clone env n) f

end Scheme
