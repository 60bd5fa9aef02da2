import Verif.Model.Assemble
import Verif.Model.Edit

/-! The editing methods of Structure (scheme/fields/structure.py:170-182, 274-289, 340-357, 450-479) as they act on field
objects and dicts that may be shared, for plain structures.  A structure is known by the address of its dict of members and
by its own attributes. -/

namespace Scheme

namespace Stock

/-- A value found where a field is expected: the object at an address, or anything else.  `isinstance(value, Field)` holds
of fields only; an Undefined is none. -/
def fieldArg (p : Stock) : Option Nat → Option (Nat × Field)
  | some i =>
    match p.fields[i]? with
    | some f => if f.common?.isSome then some (i, f) else none
    | none => none
  | none => none

/-- The entries of the dict at this address. -/
def entries (p : Stock) (d : Nat) : List (Str × Nat) := p.dicts[d]?.getD []

/-- `self.structure[name] = field` for the dict at `d` and the field at `i`. -/
def put (p : Stock) (d : Nat) (name : Str) (i : Nat) : Stock := { p with dicts := p.dicts.set d (keySet name i (p.entries d)) }

/-- `if field.name != name: field.name = name` for the field `f` at `i` (structure.py:178-179, 474-475). -/
def call (p : Stock) (i : Nat) (f : Field) (name : Str) : Stock :=
  if f.name = some name then p else { p with fields := p.fields.set i (Scheme.rename name f) }

/-- Structure.insert (structure.py:274-289) -/
def insertAt (p : Stock) (d : Nat) (arg : Option Nat) (overwrite : Bool) : Except PyErr Unit × Stock :=
  match p.fieldArg arg with
  | none => (.error .typeError, p)
  | some (i, f) =>
    match f.name with
    | some (a :: s) => (.ok (), if overwrite || ((p.entries d).lookup (a :: s)).isNone then p.put d (a :: s) i else p)
    | _ => (.error .valueError, p)

/-- Structure.remove (structure.py:450-456) -/
def removeAt (p : Stock) (d : Nat) : List Str → Stock
  | [] => p
  | name :: r =>
    removeAt (if ((p.entries d).lookup name).isSome then { p with dicts := p.dicts.set d ((p.entries d).filter fun e => e.1 != name) } else p) d r

/-- Structure.merge (structure.py:340-357): `clone` makes a new object. -/
def mergeAt (env : Env) (n : Nat) (prefer : Bool) (d : Nat) : List (Str × Option Nat) → Stock → Except PyErr Unit × Stock
  | [], p => (.ok (), p)
  | (name, a) :: r, p =>
    match p.fieldArg a with
    | none => (.error .typeError, p)
    | some (i, f) =>
      if ((p.entries d).lookup name).isSome && !prefer then (.ok (), p)
      else if f.name = some name then mergeAt env n prefer d r (p.put d name i)
      else
        match clone env n f with
        | .error e => (.error e, p)
        | .ok g => mergeAt env n prefer d r ({ p with fields := p.fields ++ [Scheme.rename name g] }.put d name p.fields.length)

/-- `deepcopy` of a dict of members (field.py:258-263): an object met before, as `memo` says, is not copied again.  The new
objects, whose addresses start at `base`, and the new entries. -/
def copyMembers (env : Env) (n : Nat) (p : Stock) : Nat → List (Nat × Nat) → List (Str × Nat) → Except PyErr (List Field × List (Str × Nat))
  | _, _, [] => .ok ([], [])
  | base, memo, (k, i) :: r =>
    match memo.lookup i with
    | some j => do
      let x ← copyMembers env n p base memo r
      return (x.1, (k, j) :: x.2)
    | none => do
      let g ← cloneChild env (clone env n) (p.fields[i]?.getD (.undef 0))
      let x ← copyMembers env n p (base + 1) ((i, base) :: memo) r
      return (g :: x.1, (k, base) :: x.2)

/-- `self.clone()` of a plain structure with the members at `d` (field.py:250-265): the address of the new dict.  An
exception leaves nothing but garbage. -/
def copyStructure (env : Env) (n : Nat) (c : Common) (p : Stock) (d : Nat) : Except PyErr (Nat × Stock) :=
  match n with
  | 0 => .error .recursionError
  | m + 1 => do
    let x ← copyMembers env m p p.fields.length [] (p.entries d)
    if c.errors.isEmpty then
      return (p.dicts.length, { p with fields := p.fields ++ x.1, dicts := p.dicts ++ [x.2] }.prevalidate x.2)
    else .error .attributeError

/-- The loop of Structure.extend (structure.py:175-180): the given objects are renamed and stored. -/
def extendEach (d : Nat) : List (Str × Option Nat) → Stock → Except PyErr Unit × Stock
  | [], p => (.ok (), p)
  | (name, a) :: r, p =>
    match p.fieldArg a with
    | none => (.error .typeError, p)
    | some (i, f) => extendEach d r ((p.call i f name).put d name i)

/-- Structure.extend (structure.py:170-182): the address of the dict of the new structure, whose attributes are `c`. -/
def extendAt (env : Env) (n : Nat) (c : Common) (p : Stock) (d : Nat) (extra : List (Str × Option Nat)) : Except PyErr Nat × Stock :=
  match copyStructure env n c p d with
  | .error e => (.error e, p)
  | .ok (d', q) => ((extendEach d' extra q).1.map fun _ => d', (extendEach d' extra q).2)

/-- The loop of Structure.replace (structure.py:471-477): an object is renamed even if its key is not present. -/
def replaceEach (d : Nat) : List (Str × Option Nat) → Stock → Except PyErr Unit × Stock
  | [], p => (.ok (), p)
  | (name, a) :: r, p =>
    match p.fieldArg a with
    | none => (.error .typeError, p)
    | some (i, f) =>
      replaceEach d r (if ((p.entries d).lookup name).isSome then (p.call i f name).put d name i else p.call i f name)

/-- Structure.replace (structure.py:458-479); `none` is the structure itself. -/
def replaceAt (env : Env) (n : Nat) (c : Common) (p : Stock) (d : Nat) (repl : List (Str × Option Nat)) : Except PyErr (Option Nat) × Stock :=
  if repl.any fun e => ((p.entries d).lookup e.1).isSome then
    match copyStructure env n c p d with
    | .error e => (.error e, p)
    | .ok (d', q) => ((replaceEach d' repl q).1.map fun _ => some d', (replaceEach d' repl q).2)
  else (.ok none, p)

end Stock

end Scheme
