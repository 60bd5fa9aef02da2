import Verif.Model.Clone
import Verif.Model.Extract

/-! `filter` and `transform` of all field types.  Both return the field object itself when nothing changes, which
their callers test with `is`. -/

namespace Scheme

/-- The result of `filter`: None, the same object, or a new field. -/
inductive Filtered
  | gone
  | same
  | new (f : Field)

/-- What `filter` and `transform` raise: CannotFilterError (exceptions.py) or a plain exception. -/
inductive EditErr
  | cannotFilter
  | py (e : PyErr)
  deriving DecidableEq

/-- A plain exception of `clone`. -/
def liftEdit {α : Type} : Except PyErr α → Except EditErr α
  | .ok a => .ok a
  | .error e => .error (.py e)

/-- `candidate = getattr(self, attr, None)`, with None counting as False (field.py:370-372) -/
def candidateOf (o : Outer) (f : Field) (attr : Str) : Val :=
  match attrOf o f attr with
  | .none => .bool false
  | v => v

/-- The loop of Field.filter (field.py:368-382). -/
def filterLoop (o : Outer) (f : Field) (all : Bool) : Bool → Params → Bool
  | included, [] => included
  | included, (attr, value) :: r =>
    if pyEq (candidateOf o f attr) value then
      if all then filterLoop o f all true r else true
    else if all then false
    else filterLoop o f all included r

/-- Field.filter (field.py:362-383): whether the field itself is returned. -/
def filterOwn (o : Outer) (f : Field) (all : Bool) (params : Params) : Bool :=
  params.isEmpty || filterLoop o f all false params

/-- A call of `filter(all, **params)` on a child.  An Undefined has no such method. -/
def filterChild (env : Env) (rec : Bool → Field → Except EditErr Filtered) (all : Bool) (f : Field) : Except EditErr Filtered :=
  match resolve env f with
  | none => .error (.py .attributeError)
  | some g => rec all g

/-- The field itself, where a container keeps its child. -/
def Filtered.get (f : Field) : Filtered → Field
  | .new g => g
  | _ => f

def Filtered.isNew : Filtered → Bool
  | .new _ => true
  | _ => false

/-- The loop of Tuple.filter (tuple.py:105-112): the new values and whether one of them changed. -/
def filterSlots (env : Env) (rec : Bool → Field → Except EditErr Filtered) (all : Bool) :
    List Field → Except EditErr (List Field × Bool)
  | [] => .ok ([], false)
  | f :: fs => do
    let x ← filterChild env rec all f
    match x with
    | .gone => throw .cannotFilter
    | x =>
      let r ← filterSlots env rec all fs
      return (x.get f :: r.1, x.isNew || r.2)

/-- One round of the loop of `_filter_structure` (structure.py:523-529): the filtered field of the member, and the
result for the members after it. -/
def keepMember (name : Str) (f : Field) (x : Filtered) (r : List (Str × Field) × Bool) : List (Str × Field) × Bool :=
  match x with
  | .gone => (r.1, true)
  | .same => ((name, f) :: r.1, r.2)
  | .new g => ((name, g) :: r.1, true)

/-- The loop of `_filter_structure` (structure.py:518-532), which passes the builtin `all`, a true value, to the
members: the remaining members and whether anything changed. -/
def filterMembers (env : Env) (rec : Bool → Field → Except EditErr Filtered) :
    List (Str × Field) → Except EditErr (List (Str × Field) × Bool)
  | [] => .ok ([], false)
  | (name, f) :: r => do
    let x ← filterChild env rec true f
    let r' ← filterMembers env rec r
    return keepMember name f x r'

/-- `_filter_structure` as tested by its caller: a mapping that is neither None nor empty. -/
def filterStructure (env : Env) (rec : Bool → Field → Except EditErr Filtered) (defn : List (Str × Field)) :
    Except EditErr (Option (List (Str × Field))) :=
  (filterMembers env rec defn).map fun r => if r.2 && !r.1.isEmpty then some r.1 else none

/-- The loop over the variants (structure.py:233-240). -/
def filterVariants (env : Env) (rec : Bool → Field → Except EditErr Filtered) :
    List (Val × List (Str × Field)) → Except EditErr (List (Val × List (Str × Field)) × Bool)
  | [] => .ok ([], false)
  | (i, defn) :: r => do
    let x ← filterStructure env rec defn
    let r' ← filterVariants env rec r
    return ((i, x.getD defn) :: r'.1, x.isSome || r'.2)

/-- Members of a new structure: named by their keys when unnamed, placeholders replaced (structure.py:557-573). -/
def nameMembers (env : Env) : List (Str × Field) → List (Str × Field)
  | [] => []
  | (name, f) :: r => (name, nameMember name ((resolve env f).getD f)) :: nameMembers env r

/-- Variants of a new structure; the discriminator is stored again (structure.py:97-100). -/
def nameVariants (env : Env) (disc : Field) : List (Val × List (Str × Field)) → List (Val × List (Str × Field))
  | [] => []
  | (i, defn) :: r => (i, keySet (disc.name.getD []) (discFor env disc i) (nameMembers env defn)) :: nameVariants env disc r

/-- `self.clone(structure=...)` for a polymorphic structure: the discriminator is copied, the variants are
given. -/
def clonePolyWith (env : Env) (n : Nat) (c : Common) (disc : Field) (variants : List (Val × List (Str × Field))) (s : Bool)
    (ko : List Str) : Except PyErr Field := do
  let disc' ← clone env n disc
  initErrors false c (.poly c disc' (nameVariants env disc' variants) s ko)

/-- `self.clone(value=...)` for a map: the key field is copied. -/
def cloneMapWith (env : Env) (n : Nat) (c : Common) (key : Option Field) (value : Field) (req : List Val) : Except PyErr Field := do
  let key' ← cloneKey (clone env n) key
  initErrors false c (.map c key' value req)

/-- Sequence.filter and Map.filter once the child has been filtered (sequence.py:117-123, map.py:126-132). -/
def filterOnly (mk : Field → Except PyErr Field) : Filtered → Except EditErr Filtered
  | .same => .ok .same
  | .new g => (liftEdit (mk g)).map .new
  | .gone => .error .cannotFilter

/-- The children part of `field.filter(all, **params)`; `n` levels of call depth are left.  Map.filter passes
its value field, a true value, as `all` (map.py:126). -/
def filterBody (env : Env) (n : Nat) (rec : Bool → Field → Except EditErr Filtered) (all : Bool) (f : Field) : Except EditErr Filtered :=
  match f with
  | .leaf .. => .ok .same
  | .union .. => .ok .same
  | .sequence c item mn mx u => do
    let x ← filterChild env rec all item
    filterOnly (fun g => initErrors false c (.sequence c g mn mx u)) x
  | .map c key value req => do
    let x ← filterChild env rec true value
    filterOnly (fun g => cloneMapWith env n c key g req) x
  | .tuple c values => do
    let r ← filterSlots env rec all values
    if r.2 then (liftEdit (initErrors false c (.tuple c r.1))).map .new else .ok .same
  | .structure c defn s ko => do
    match ← filterStructure env rec defn with
    | some defn' => (liftEdit (initErrors false c (.structure c (nameMembers env defn') s ko))).map .new
    | none => .ok .same
  | .poly c disc variants s ko => do
    let r ← filterVariants env rec variants
    if r.2 then (liftEdit (clonePolyWith env n c disc r.1 s ko)).map .new else .ok .same
  | .undef _ => .error (.py .attributeError)

/-- `field.filter(all, **params)` with `n` levels of call depth (field.py:362-383, sequence.py:113-123,
map.py:122-132, tuple.py:98-117, structure.py:227-249; Union has the method of Field). -/
def filter (env : Env) (o : Outer) (params : Params) : Nat → Bool → Field → Except EditErr Filtered
  | 0, _, _ => .error (.py .recursionError)
  | n + 1, all, f =>
    match f with
    | .undef _ => .error (.py .attributeError)
    | f => if filterOwn o f all params then filterBody env n (filter env o params n) all f else .ok .gone

/-! ### transform -/

/-- What a transformer answers: the field it was given, another field, False, or anything else. -/
inductive Answer
  | itself
  | field (g : Field)
  | no
  | other

/-- A call of `transform` on a child; `none` is the same object.  An Undefined has no such method. -/
def transformChild (env : Env) (rec : Field → Except PyErr (Option Field)) (f : Field) : Except PyErr (Option Field) :=
  match resolve env f with
  | none => .error .attributeError
  | some g => rec g

/-- The loop of Tuple.transform and Union.transform (tuple.py:210-216, union.py:127-133). -/
def transformList (env : Env) (rec : Field → Except PyErr (Option Field)) : List Field → Except PyErr (List Field × Bool)
  | [] => .ok ([], false)
  | f :: fs => do
    let x ← transformChild env rec f
    let r ← transformList env rec fs
    return (x.getD f :: r.1, x.isSome || r.2)

/-- The loop of Structure.transform (structure.py:491-497). -/
def transformMembers (env : Env) (rec : Field → Except PyErr (Option Field)) :
    List (Str × Field) → Except PyErr (List (Str × Field) × Bool)
  | [] => .ok ([], false)
  | (name, f) :: r => do
    let x ← transformChild env rec f
    let r' ← transformMembers env rec r
    return ((name, x.getD f) :: r'.1, x.isSome || r'.2)

/-- The children part of `field.transform(transformer)`; `n` levels of call depth are left.  On a polymorphic
structure the loop meets dicts, which have no `transform` method. -/
def transformBody (env : Env) (n : Nat) (rec : Field → Except PyErr (Option Field)) (f : Field) : Except PyErr (Option Field) :=
  match f with
  | .leaf .. => .ok none
  | .sequence c item mn mx u => do
    match ← transformChild env rec item with
    | none => return none
    | some g => (initErrors false c (.sequence c g mn mx u)).map some
  | .map c key value req => do
    match ← transformChild env rec value with
    | none => return none
    | some g => (cloneMapWith env n c key g req).map some
  | .tuple c values => do
    let r ← transformList env rec values
    if r.2 then (initErrors false c (.tuple c r.1)).map some else .ok none
  | .union c fields => do
    let r ← transformList env rec fields
    if r.2 then (initErrors false c (.union c r.1)).map some else .ok none
  | .structure c defn s ko => do
    let r ← transformMembers env rec defn
    if r.2 then (initErrors false c (.structure c (nameMembers env r.1) s ko)).map some else .ok none
  | .poly _ _ variants _ _ => if variants.isEmpty then .ok none else .error .attributeError
  | .undef _ => .error .attributeError

/-- `field.transform(transformer)` with `n` levels of call depth (field.py:504-513, sequence.py:211-222,
map.py:228-239, tuple.py:200-220, union.py:117-137, structure.py:481-502).  Transformers are functions of the field;
what they raise is not modelled. -/
def transform (env : Env) (tr : Field → Answer) : Nat → Field → Except PyErr (Option Field)
  | 0, _ => .error .recursionError
  | n + 1, f =>
    match f with
    | .undef _ => .error .attributeError
    | f => match tr f with
      | .itself => .ok none
      | .field g => .ok (some g)
      | .no => .ok none
      | .other => transformBody env n (transform env tr n) f

end Scheme
