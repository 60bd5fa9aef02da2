import Verif.Model.Describe

/-! Visiting the parts of a description (scheme/field.py:523-533, 612-614, and `_visit_field` of the field classes). -/

namespace Scheme

/-- A callback that may raise, and may keep state of type `σ`. -/
abbrev Visitor (σ : Type) := σ → Val → Except Exn (Val × σ)

section
variable {σ : Type}

/-- `[callback(field) for field in ...]` (tuple.py:228, union.py:145) -/
def visitItems (cb : Visitor σ) : σ → List Val → Except Exn (List Val × σ)
  | s, [] => .ok ([], s)
  | s, v :: r => do
    let (w, s) ← cb s v
    let (r', s) ← visitItems cb s r
    return (w :: r', s)

/-- `visit` in structure.py:577-578 -/
def visitEntries (cb : Visitor σ) : σ → List (Val × Val) → Except Exn (List (Val × Val) × σ)
  | s, [] => .ok ([], s)
  | s, (k, v) :: r => do
    let (w, s) ← cb s v
    let (r', s) ← visitEntries cb s r
    return ((k, w) :: r', s)

/-- `x.items()` -/
def itemsOf : Val → Except Exn (List (Val × Val))
  | .dict d => .ok d
  | _ => .error (.py .attributeError)

/-- The loop over the variants (structure.py:581-582). -/
def visitVariants (cb : Visitor σ) : σ → List (Val × Val) → Except Exn (List (Val × Val) × σ)
  | s, [] => .ok ([], s)
  | s, (k, v) :: r => do
    let d ← itemsOf v
    let (m, s) ← visitEntries cb s d
    let (r', s) ← visitVariants cb s r
    return ((k, .dict m) :: r', s)

/-- `specification[key]` -/
def specGet (d : List (Val × Val)) (key : Str) : Except Exn Val :=
  match dictGet d (.str key) with
  | some v => .ok v
  | none => .error (.py .keyError)

/-- `cls.types[fieldtype]._visit_field(specification, callback)`: field.py:612-614, sequence.py:227-229, map.py:244-249,
tuple.py:226-228, union.py:143-145, structure.py:575-584.  Simplification: the registry has the field types of the library. -/
def visitField (cb : Visitor σ) (s : σ) (type : Str) (d : List (Val × Val)) : Except Exn (List (Str × Val) × σ) :=
  if type = c!"sequence" then do
    let v ← specGet d c!"item"
    let (w, s) ← cb s v
    return ([(c!"item", w)], s)
  else if type = c!"map" then do
    let v ← specGet d c!"value"
    let (w, s) ← cb s v
    match dictGet d (.str c!"key") with
    | none => return ([(c!"value", w)], s)
    | some k => do
      let (k', s) ← cb s k
      return ([(c!"value", w), (c!"key", k')], s)
  else if type = c!"tuple" then do
    let v ← specGet d c!"values"
    let l ← iterate v
    let (l', s) ← visitItems cb s l
    return ([(c!"values", .tuple l')], s)
  else if type = c!"union" then do
    let v ← specGet d c!"fields"
    let l ← iterate v
    let (l', s) ← visitItems cb s l
    return ([(c!"fields", .tuple l')], s)
  else if type = c!"structure" then do
    let v ← specGet d c!"structure"
    let m ← itemsOf v
    let (m', s) ← if ((dictGet d (.str c!"polymorphic_on")).getD .none).truthy then visitVariants cb s m else visitEntries cb s m
    return ([(c!"structure", .dict m')], s)
  else if fieldTypes.contains type then .ok ([], s)
  else .error (.py .keyError)

/-- Field.visit (field.py:523-533): the dict returned, and the state the callback ends in.  Simplification: a
`fieldtype` that is not a text is a KeyError. -/
def visit (cb : Visitor σ) (s : σ) : Val → Except Exn (List (Str × Val) × σ)
  | .dict d => do
    match ← specGet d c!"fieldtype" with
    | .str t => visitField cb s t d
    | _ => .error (.py .keyError)
  | _ => .error (.py .typeError)

end

/-- The callback a user writes to see all nested fields: it notes the description and visits it in turn.  It returns the
description. -/
def walk : Nat → Visitor (List Val)
  | 0, _, _ => .error (.py .recursionError)
  | n + 1, s, v => do
    let (_, s) ← visit (walk n) (s ++ [v]) v
    return (v, s)

end Scheme
