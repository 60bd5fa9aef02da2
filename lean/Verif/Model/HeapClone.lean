import Verif.Model.Heap

/-! `copy.deepcopy` and `Field.clone` as they act on Python's memory. -/

namespace Scheme

open HM

/-- The copies made so far, by the object copied (`memo`). -/
abbrev CopyMemo := List (Nat × HVal)

/-- A recursive call of `deepcopy`. -/
abbrev HCopyRec := HVal → CopyMemo → HM (HVal × CopyMemo)

/-- `for a in x: append(deepcopy(a, memo))` (CPython's `copy._deepcopy_list`), the new list being at `b`. -/
def hCopyInto (rec : HCopyRec) (b : Nat) : List HVal → CopyMemo → HM CopyMemo
  | [], m => return m
  | x :: r, m => do
    let p ← rec x m
    appendTo b p.1
    hCopyInto rec b r p.2

/-- `for key, value in x.items(): y[deepcopy(key, memo)] = deepcopy(value, memo)` (`copy._deepcopy_dict`), the new dict
being at `b`; the value is copied first. -/
noncomputable def hCopyEntries (rec : HCopyRec) (b : Nat) : List (HVal × HVal) → CopyMemo → HM CopyMemo
  | [], m => return m
  | (k, x) :: r, m => do
    let p ← rec x m
    let q ← rec k p.2
    putItem b q.1 p.1
    hCopyEntries rec b r q.2

/-- `[deepcopy(a, memo) for a in x]` (`copy._deepcopy_tuple`) -/
def hCopyAll (rec : HCopyRec) : List HVal → CopyMemo → HM (List HVal × CopyMemo)
  | [], m => return ([], m)
  | x :: r, m => do
    let p ← rec x m
    let q ← hCopyAll rec r p.2
    return (p.1 :: q.1, q.2)

/-- `k is j` for an object and its copy; what is not a container is copied by taking it over. -/
def sameObj : HVal → HVal → Bool
  | .ref a, .ref b => a == b
  | .atom _, .atom _ => true
  | _, _ => false

/-- `for k, j in zip(x, y): if k is not j` finds none. -/
def sameObjs : List HVal → List HVal → Bool
  | x :: r, y :: s => sameObj x y && sameObjs r s
  | _, _ => true

/-- `copy.deepcopy(x, memo)`, which field.py:261 and surrogate.py:162 call, with `n` levels of call depth available.
Simplifications: values that are not containers are taken over, also fields and user objects; there are no sets among
the values. -/
noncomputable def hCopy : Nat → HCopyRec
  | _, .atom v, m => return (.atom v, m)
  | 0, .ref _, _ => raise (.py .recursionError)
  | n + 1, .ref a, m =>
    match m.lookup a with
    | some y => return (y, m)
    | none => do
      match ← get a with
      | some (.list l) =>
        let b ← alloc (.list [])
        let m' ← hCopyInto (hCopy n) b l ((a, .ref b) :: m)
        return (.ref b, m')
      | some (.dict d) =>
        let b ← alloc (.dict [])
        let m' ← hCopyEntries (hCopy n) b d ((a, .ref b) :: m)
        return (.ref b, m')
      | some (.tuple l) =>
        let p ← hCopyAll (hCopy n) l m
        match p.2.lookup a with
        | some y => return (y, p.2)
        | none =>
          if sameObjs l p.1 then return (.ref a, p.2)
          else
            let b ← alloc (.tuple p.1)
            return (.ref b, (a, .ref b) :: p.2)
      | _ => raise (.py .typeError)

/-- The loop over `self.__dict__` (field.py:258-263). -/
noncomputable def hCloneLoop (n : Nat) : List (Str × HVal) → List (Str × HVal) → HM (List (Str × HVal))
  | [], params => return params
  | (key, x) :: r, params =>
    if (params.map (·.1)).contains key then hCloneLoop n r params
    else ⟨fun h =>
      match (hCopy n x []).run h with
      | (.ok p, h') => (hCloneLoop n r (params ++ [(key, p.1)])).run h'
      | (.error (.py .typeError), h') => (hCloneLoop n r params).run h'
      | (.error e, h') => (.error e, h')⟩

/-- The keyword arguments `Field.clone(**params)` passes to the constructor (field.py:250-263) of a field with this
default and these attributes. -/
noncomputable def hCloneArgs (n : Nat) (params : List (Str × HVal)) (dflt : HVal) (attrs : List (Str × HVal)) :
    HM (List (Str × HVal)) :=
  hCloneLoop n attrs (if (params.map (·.1)).contains c!"default" then params else params ++ [(c!"default", dflt)])

end Scheme
