import Verif.Model.Describe
import Verif.Model.Heap

/-! `Field.reconstruct` as it acts on Python's memory: it takes `fieldtype` out of the very dicts it is given. -/

namespace Scheme

open HM

/-- `key == 'fieldtype'` for the key of an entry. -/
def isFieldtype : HVal → Bool
  | .atom (.str s) => s == c!"fieldtype"
  | _ => false

/-- `specification.pop('fieldtype')` (field.py:70) for the dict at `a`: the value popped, `none` for KeyError. -/
def popFieldtype (a : Nat) : HM (Option HVal) := ⟨fun h =>
  match h[a]? with
  | some (.dict d) => match d.find? (fun e => isFieldtype e.1) with
    | some e => (.ok (some e.2), h.set a (.dict (d.eraseP fun e => isFieldtype e.1)))
    | none => (.ok none, h)
  | _ => (.ok none, h)⟩

/-- A recursive call of `_construct_parameter`. -/
abbrev HArgRec := HVal → HM Arg

/-- `[cls._construct_parameter(item) for item in parameter]` (field.py:551) -/
def hConstructItems (rec : HArgRec) : List HVal → HM (List Arg)
  | [] => return []
  | x :: r => do
    let a ← rec x
    let r' ← hConstructItems rec r
    return a :: r'

/-- `dict((k, cls._construct_parameter(v)) for k, v in parameter.items())` (field.py:549) -/
noncomputable def hConstructEntries (rec : HArgRec) : List (HVal × HVal) → HM (List (Val × Arg))
  | [] => return []
  | (k, x) :: r => do
    let vk ← read k
    let a ← rec x
    let r' ← hConstructEntries rec r
    return (vk, a) :: r'

/-- Whether the entries can be passed to `construct` as keyword arguments (field.py:81, 269): names are texts, and
`cls` is taken. -/
def keywordsOk (d : List (HVal × HVal)) : Bool :=
  d.all fun e => match e.1 with
    | .atom (.str k) => k != c!"cls"
    | _ => false

/-- FieldMeta.reconstruct (field.py:75-81) for the dict at `a` from which the field type `t` was popped, with
Field.construct (field.py:268-274); the keyword arguments are a copy of the dict. -/
noncomputable def hConstructField (env : Env) (rec : HArgRec) (a : Nat) (t : HVal) : HM Field := do
  match ← read t with
  | .str t =>
    if fieldTypes.contains t then
      match ← get a with
      | some (.dict d) =>
        if keywordsOk d then
          let e ← hConstructEntries rec d
          let args ← lift (keywordArgs e)
          lift (initField env t args)
        else raise (.py .typeError)
      | _ => raise (.py .typeError)
    else raise (.py .valueError)
  | v => if hashable v then raise (.py .valueError) else raise (.py .typeError)

/-- FieldMeta.reconstruct (field.py:66-81) for the dict at `a`. -/
noncomputable def hReconstructDict (env : Env) (rec : HArgRec) (a : Nat) : HM Field := do
  match ← popFieldtype a with
  | none => raise (.py .valueError)
  | some t => hConstructField env rec a t

/-- Field._construct_parameter (field.py:543-556). -/
noncomputable def hConstructStep (env : Env) (rec : HArgRec) : HArgRec
  | .ref a => do
    match ← get a with
    | some (.dict d) =>
      if d.any fun e => isFieldtype e.1 then
        let f ← hReconstructDict env rec a
        return .field f
      else
        let e ← hConstructEntries rec d
        return .ofDict e
    | some (.list l) => do
      let e ← hConstructItems rec l
      return .ofList e
    | some (.tuple l) => do
      let e ← hConstructItems rec l
      return .ofTuple e
    | _ => raise (.py .typeError)
  | .atom v => return .val v

noncomputable def hConstructArg (env : Env) : Nat → HArgRec
  | 0 => fun _ => raise (.py .recursionError)
  | n + 1 => hConstructStep env (hConstructArg env n)

/-- `Field.reconstruct(specification)` (field.py:60-81) for an object.  A container other than a dict has no suitable
method `pop`. -/
noncomputable def hReconstruct (env : Env) (n : Nat) : HVal → HM Field
  | .ref a => do
    match ← get a with
    | some (.dict _) => hReconstructDict env (hConstructArg env n) a
    | _ => raise (.py .valueError)
  | .atom v => lift (reconstruct env n v)

/-- What a call leaves behind, its outcome aside. -/
def HM.effect {α : Type} (m : HM α) : HM Unit := ⟨fun h => (.ok (), (m.run h).2)⟩

/-- `key == name` for the key of an entry. -/
def isNamed (name : Str) : HVal → Bool
  | .atom (.str s) => s == name
  | _ => false

/-- The entry of the dict at `a` under this text. -/
def entryAt (name : Str) (a : Nat) : HM (Option HVal) := ⟨fun h =>
  match h[a]? with
  | some (.dict d) => (.ok ((d.find? fun e => isNamed name e.1).map (·.2)), h)
  | _ => (.ok none, h)⟩

/-- What unserializing does to the objects of a value: Definition passes the value to `Field.reconstruct`
(definition.py:44-49), Surrogate the entry `__schema__` (surrogate.py:186-191; the dict of which the entries are popped
is a copy, surrogate.py:131).  Simplification: what a surrogate's own schema takes out of the remaining members is
left out, and so is what methods of user classes do. -/
noncomputable def takeDescriptions (env : Env) (n : Nat) : Leaf → HVal → HM Unit
  | .definition _, x => (hReconstruct env n x).effect
  | .surrogate _, .ref a => do
    match ← entryAt c!"__schema__" a with
    | some x => (hReconstruct env n x).effect
    | none => return ()
  | _, _ => return ()

end Scheme
