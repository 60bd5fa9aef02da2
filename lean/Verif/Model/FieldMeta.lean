import Verif.Model.Field

/-! Field classes and their tables (scheme/field.py:31-58, 61-83).  A table is an association list with the latest
assignment first. -/

namespace Scheme

/-- What FieldMeta puts on a field class (field.py:37, 50, 55): `type`, `errors` by token, `parameters` by name.  Errors
and parameter defaults are handles. -/
structure FieldCls where
  type : Str
  errors : List (Str × Nat)
  params : List (Str × Nat)

/-- A class statement: its name, its bases (`none`: a class without tables, such as `object`), the declared errors
with their tokens and the declared parameters. -/
structure FieldDecl where
  name : Str
  bases : List (Option Nat)
  errors : List (Str × Nat)
  params : List (Str × Nat)

/-- The field classes by number and `Field.types`. -/
structure FieldTypes where
  classes : List FieldCls
  types : List (Str × Nat)

def FieldTypes.init : FieldTypes := ⟨[], []⟩

/-- `getattr(base, 'errors', None)` and `getattr(base, 'parameters', None)` (field.py:43-48); nothing for a class
without tables. -/
def FieldTypes.baseTable (st : FieldTypes) (pick : FieldCls → List (Str × Nat)) (b : Option Nat) : List (Str × Nat) :=
  match b.bind (st.classes[·]?) with
  | some c => pick c
  | none => []

/-- The loop over the reversed bases (field.py:42-48): `table.update(inherited)`. -/
def FieldTypes.inherit (st : FieldTypes) (pick : FieldCls → List (Str × Nat)) : List (Option Nat) → List (Str × Nat) → List (Str × Nat)
  | [], table => table
  | b :: r, table => st.inherit pick r (st.baseTable pick b ++ table)

/-- Assignment of the declared entries one after another (field.py:51-52, 54). -/
def assignAll (table : List (Str × Nat)) : List (Str × Nat) → List (Str × Nat)
  | [] => table
  | e :: r => assignAll (e :: table) r

/-- FieldMeta.__new__ (field.py:32-58) -/
def FieldTypes.define (u : Chars) (st : FieldTypes) (d : FieldDecl) : FieldTypes :=
  let type := lower u d.name
  let errors := assignAll (st.inherit (·.errors) d.bases.reverse []) d.errors
  let params := assignAll (st.inherit (·.params) d.bases.reverse []) d.params
  ⟨st.classes ++ [⟨type, errors, params⟩], (type, st.classes.length) :: st.types⟩

/-- Class statements one after another. -/
def FieldTypes.run (u : Chars) : FieldTypes → List FieldDecl → FieldTypes
  | st, [] => st
  | st, d :: r => (st.define u d).run u r

/-- The class FieldMeta.reconstruct constructs for a field type (field.py:75-81). -/
def FieldTypes.constructor (st : FieldTypes) (fieldtype : Str) : Except PyErr Nat :=
  match st.types.lookup fieldtype with
  | some i => .ok i
  | none => .error .valueError

end Scheme
