import Verif.Model.Clone
import Verif.Model.Edit
import Verif.Model.StructuredText

/-! `Structure.__init__` in full (scheme/fields/structure.py:64-113). -/

namespace Scheme

/-- An exception of `clone`, `generate_defaults`. -/
def liftPy {α : Type} : Except PyErr α → Except Exn α
  | .ok a => .ok a
  | .error e => .error (.py e)

/-- `value.update(common)` (structure.py:71-74) for dicts with text keys. -/
def updated (own common : List (Str × Field)) : List (Str × Field) := common.foldl (fun d e => keySet e.1 e.2 d) own

/-- The argument `polymorphic_on`: a field or the name of one that is to be generated. -/
inductive On
  | field (f : Field)
  | name (s : Str)

/-- The argument `key_order` (structure.py:83-89); anything else that is true is a TypeError. -/
inductive KeyOrder
  | none
  | text (s : Str)
  | list (l : List Str)
  | other

/-- structure.py:83-89: an empty text or list is as good as None. -/
def keyOrderOf : KeyOrder → Except Exn (List Str)
  | .none => .ok []
  | .text s => .ok (if s.isEmpty then [] else splitOn ' ' s)
  | .list l => .ok l
  | .other => .error (.py .typeError)

/-- The texts among identities, all of which must be texts. -/
def identityTexts : List Val → Option (List Str)
  | [] => some []
  | .str s :: r => (identityTexts r).map (s :: ·)
  | _ :: _ => none

/-- `field.clone(**{parameter: value})` with `n` levels of call depth available; `g` applies the parameter. -/
def cloneWith (env : Env) (n : Nat) (f : Field) (g : Common → Common) : Except Exn Field :=
  (liftPy (clone env n f)).map fun f' => f'.setCommon g

/-- The discriminator (structure.py:75-81): `Enumeration(sorted(structure.keys()), nonempty=True, name=...)` or the given
field, with `required` set.  Simplifications: with a generated discriminator the identities are texts; a placeholder, which
is no Field, raises TypeError. -/
def discriminator (env : Env) (n : Nat) (ids : List Val) : On → Except Exn Field
  | .name s =>
    match identityTexts ids with
    | some l => .ok (.leaf { name := some s, nonnull := true, required := true }
        (.enumeration ((sortEntries (l.map fun s => (s, ()))).map fun e => .str e.1) []))
    | none => .error (.py (.other 2))
  | .field f =>
    match f.common? with
    | none => .error (.py .typeError)
    | some c => if c.required then .ok f else cloneWith env n f fun c => { c with required := true }

/-- Structure._prevalidate_structure (structure.py:557-573): a placeholder that is defined is replaced by its definition,
others stay; members without name are named by their key. -/
def prevalidated (env : Env) : List (Str × Field) → List (Str × Field)
  | [] => []
  | (name, f) :: r => (name, match resolve env f with | some g => nameMember name g | none => f) :: prevalidated env r

/-- The loop over the variants (structure.py:97-100).  Simplification: the discriminator has a name. -/
def builtVariants (env : Env) (n : Nat) (disc : Field) (on : Str) :
    List (Val × List (Str × Field)) → Except Exn (List (Val × List (Str × Field)))
  | [] => .ok []
  | (id, defn) :: r => do
    let member ← cloneWith env n disc fun c => { c with constant := id }
    let r' ← builtVariants env n disc on r
    return (id, keySet on member (prevalidated env defn)) :: r'

/-- `generate_default` (structure.py:104-113) of a plain structure: it must be True. -/
def withDefault (env : Env) (gen : Val) (f : Field) : Except Exn Field :=
  match f.common? with
  | none => .ok f
  | some c =>
    if gen.truthy && !c.default.truthy then
      match f with
      | .poly _ _ variants _ _ =>
        if !hashable gen then .error (.py .typeError)
        else match variantGet variants gen with
          | none => .error (.py .valueError)
          | some _ => (liftPy (generateDefaults env f gen true)).map fun v => f.setCommon fun c => { c with default := v }
      | _ =>
        match gen with
        | .bool true => (liftPy (generateDefaults env f .none true)).map fun v => f.setCommon fun c => { c with default := v }
        | _ => .error (.py .valueError)
    else .ok f

/-- `Structure(structure, strict, generate_default=..., key_order=..., **params)` (structure.py:64-113); `c` is what
`Field.__init__` makes of the parameters.  Simplification: arguments of other types are not represented. -/
def newStructure (env : Env) (c : Common) (defn : List (Str × Field)) (strict : Bool) (order : KeyOrder) (gen : Val) :
    Except Exn Field := do
  let ko ← keyOrderOf order
  withDefault env gen (.structure c (prevalidated env defn) strict ko)

/-- `Structure(variants, strict, polymorphic_on, ...)` (structure.py:64-113) with `n` levels of call depth for copying the
discriminator; `common` is what the variants hold under `*`. -/
def newPolymorphic (env : Env) (n : Nat) (c : Common) (variants : List (Val × List (Str × Field))) (common : List (Str × Field))
    (on : On) (strict : Bool) (order : KeyOrder) (gen : Val) : Except Exn Field := do
  let variants := variants.map fun e => (e.1, updated e.2 common)
  let disc ← discriminator env n (variants.map (·.1)) on
  let ko ← keyOrderOf order
  match disc.name with
  | some (ch :: name) =>
    let vs ← builtVariants env n disc (ch :: name) variants
    withDefault env gen (.poly c disc vs strict ko)
  | _ => .error (.py (.other 2))

end Scheme
