import Verif.Model.Clone

/-! The editing methods of Structure and its generated defaults, for plain (not polymorphic) structures unless
said otherwise.  A structure's mapping is given by its entries in order. -/

namespace Scheme

/-- A value passed where a field is expected: a field or anything else. -/
abbrev FieldArg := Option Field

/-- `field.name = name` -/
def rename (name : Str) (f : Field) : Field := f.setCommon fun c => { c with name := some name }

/-- Structure.insert (structure.py:274-289): the new mapping.  A missing or empty name is a ValueError. -/
def insertField (defn : List (Str × Field)) (field : FieldArg) (overwrite : Bool) : Except PyErr (List (Str × Field)) :=
  match field with
  | none => .error .typeError
  | some f => match f.name with
    | some (a :: s) =>
      if overwrite || (defn.lookup (a :: s)).isNone then .ok (keySet (a :: s) f defn) else .ok defn
    | _ => .error .valueError

/-- The loop of Structure.merge (structure.py:350-357): the mapping, which keeps what was done before the loop
ends, and the exception if any.  `field.clone(name=name)` is given `n` levels of call depth. -/
def mergeLoop (env : Env) (n : Nat) (prefer : Bool) (defn : List (Str × Field)) : List (Str × FieldArg) → List (Str × Field) × Option PyErr
  | [] => (defn, none)
  | (_, none) :: _ => (defn, some .typeError)
  | (name, some f) :: r =>
    if (defn.lookup name).isSome && !prefer then (defn, none)
    else if f.name = some name then mergeLoop env n prefer (keySet name f defn) r
    else match clone env n f with
      | .error e => (defn, some e)
      | .ok g => mergeLoop env n prefer (keySet name (rename name g) defn) r

/-- Structure.remove (structure.py:450-456) -/
def removeNames (defn : List (Str × Field)) : List Str → List (Str × Field)
  | [] => defn
  | name :: r => removeNames (if (defn.lookup name).isSome then defn.filter (fun e => e.1 != name) else defn) r

/-- The loop of Structure.extend on the copied mapping (structure.py:175-180). -/
def extendLoop (defn : List (Str × Field)) : List (Str × FieldArg) → Except PyErr (List (Str × Field))
  | [] => .ok defn
  | (_, none) :: _ => .error .typeError
  | (name, some f) :: r => extendLoop (keySet name (rename name f) defn) r

/-- Structure.extend (structure.py:170-182) -/
def extendStructure (env : Env) (n : Nat) (c : Common) (defn : List (Str × Field)) (s : Bool) (ko : List Str)
    (extra : List (Str × FieldArg)) : Except PyErr Field := do
  match ← clone env n (.structure c defn s ko) with
  | .structure c' defn' s' ko' => (extendLoop defn' extra).map fun d => .structure c' d s' ko'
  | f => .ok f

/-- The loop of Structure.replace on the copied mapping (structure.py:471-477). -/
def replaceLoop (defn : List (Str × Field)) : List (Str × FieldArg) → Except PyErr (List (Str × Field))
  | [] => .ok defn
  | (_, none) :: _ => .error .typeError
  | (name, some f) :: r =>
    replaceLoop (if (defn.lookup name).isSome then keySet name (rename name f) defn else defn) r

/-- Structure.replace (structure.py:458-479); `none` is the structure itself. -/
def replaceStructure (env : Env) (n : Nat) (c : Common) (defn : List (Str × Field)) (s : Bool) (ko : List Str)
    (repl : List (Str × FieldArg)) : Except PyErr (Option Field) :=
  if repl.any (fun e => (defn.lookup e.1).isSome) then do
    match ← clone env n (.structure c defn s ko) with
    | .structure c' defn' s' ko' => (replaceLoop defn' repl).map fun d => some (.structure c' d s' ko')
    | f => .ok (some f)
  else .ok none

/-- `field.default`, or `field.constant` if that is None (structure.py:537-539); an Undefined has neither
attribute. -/
def defaultOf (env : Env) (f : Field) : Except PyErr Val :=
  match (resolve env f).bind (·.common?) with
  | none => .error .attributeError
  | some c => .ok (if c.default.isNone then c.constant else c.default)

/-- `_generate_default_values` (structure.py:534-543) -/
def generateValues (env : Env) (sparse : Bool) : List (Str × Field) → Except PyErr (List (Val × Val))
  | [] => .ok []
  | (name, f) :: r => do
    let v ← defaultOf env f
    let r' ← generateValues env sparse r
    return if !sparse || !v.isNone then (.str name, v) :: r' else r'

/-- The loop over the variants (structure.py:266-269); identities are distinct keys. -/
def generateVariants (env : Env) (sparse : Bool) : List (Val × List (Str × Field)) → Except PyErr (List (Val × Val))
  | [] => .ok []
  | (i, defn) :: r => do
    let d ← generateValues env sparse defn
    let r' ← generateVariants env sparse r
    return (i, .dict d) :: r'

/-- Structure.generate_defaults (structure.py:251-269) for plain and polymorphic structures; an identity that is
not hashable raises TypeError when looked up. -/
def generateDefaults (env : Env) (f : Field) (identity : Val) (sparse : Bool) : Except PyErr Val :=
  match f with
  | .structure _ defn _ _ => if identity.isNone then (generateValues env sparse defn).map .dict else .error .valueError
  | .poly _ _ variants _ _ =>
    if identity.isNone then (generateVariants env sparse variants).map .dict
    else if hashable identity then
      match variantGet variants identity with
      | some defn => (generateValues env sparse defn).map .dict
      | none => .error .valueError
    else .error .typeError
  | _ => .error .attributeError

end Scheme
