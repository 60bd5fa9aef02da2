import Verif.Model.Describe
import Verif.Model.Heap

/-! `Field.describe` as it acts on Python's memory: which objects a description is put together from. -/

namespace Scheme

open HM

/-- `[self._describe_parameter(item) for item in parameter]` (field.py:562) -/
def hDescItems (rec : HVal → HM HVal) : List HVal → HM (List HVal)
  | [] => return []
  | x :: r => do
    let y ← rec x
    let r' ← hDescItems rec r
    return y :: r'

/-- `dict((k, self._describe_parameter(v)) for k, v in parameter.items())` (field.py:560); keys are taken over. -/
def hDescEntries (rec : HVal → HM HVal) : List (HVal × HVal) → HM (List (HVal × HVal))
  | [] => return []
  | (k, x) :: r => do
    let y ← rec x
    let r' ← hDescEntries rec r
    return (k, y) :: r'

/-- Field._describe_parameter (field.py:558-572), with `n` levels of call depth available.  Simplification: the
description of a field held as a value is built anew, as `hDescribe` below does. -/
def hDescParam (env : Env) : Nat → HVal → HM HVal
  | 0, _ => raise (.py .recursionError)
  | n + 1, .ref a => do
    match ← get a with
    | some (.dict d) =>
      let d' ← hDescEntries (hDescParam env n) d
      let b ← alloc (.dict d')
      return .ref b
    | some (.list l) =>
      let l' ← hDescItems (hDescParam env n) l
      let b ← alloc (.list l')
      return .ref b
    | some (.tuple l) =>
      let l' ← hDescItems (hDescParam env n) l
      let b ← alloc (.tuple l')
      return .ref b
    | _ => raise .cannotDescribe
  | _ + 1, .atom v =>
    match v with
    | .field k => do
      let w ← lift (env.describe k)
      build w
    | v => do
      let w ← lift (descParam env v)
      return .atom w

/-- `description[name] = self._describe_parameter(value)` for the dict at `a`, nothing if CannotDescribeError is raised
(field.py:301-304, 313-316, 320-323). -/
noncomputable def hDescSet (env : Env) (n a : Nat) (name : Str) (x : HVal) : HM Unit := ⟨fun h =>
  match (hDescParam env n x).run h with
  | (.ok y, h') => (putItem a (.atom (.str name)) y).run h'
  | (.error .cannotDescribe, h') => (.ok (), h')
  | (.error e, h') => (.error e, h')⟩

/-- `value is None` -/
def HVal.isNone : HVal → Bool
  | .atom v => v.isNone
  | .ref _ => false

/-- `value is default_value`; the defaults are None, True and False. -/
def hIsDefault : HVal → Val → Bool
  | .atom v, d => isDefault v d
  | .ref _, _ => false

/-- The loop over the aspects (field.py:299-304). -/
noncomputable def hDescAspects (env : Env) (n a : Nat) : List (Str × HVal) → HM Unit
  | [] => return ()
  | (name, x) :: r =>
    if x.isNone then hDescAspects env n a r
    else do
      hDescSet env n a name x
      hDescAspects env n a r

/-- The loop over `self.parameters` and `parameters` (field.py:306-316): parameter, attribute and default. -/
noncomputable def hDescTable (env : Env) (n a : Nat) (verbose : Bool) (skip : List Str) : List (Str × HVal × Val) → HM Unit
  | [] => return ()
  | (name, x, dflt) :: r =>
    if skip.contains name || x.isNone || (!verbose && hIsDefault x dflt) then hDescTable env n a verbose skip r
    else do
      hDescSet env n a name x
      hDescTable env n a verbose skip r

/-- The loop over the keyword parameters (field.py:318-323). -/
noncomputable def hDescOver (env : Env) (n a : Nat) (verbose : Bool) : List (Str × HVal) → HM Unit
  | [] => return ()
  | (name, x) :: r =>
    if !verbose && x.isNone then hDescOver env n a verbose r
    else do
      hDescSet env n a name x
      hDescOver env n a verbose r

/-- Field.describe (field.py:276-325) of a field of this type: `aspects` are its aspects, `table` the parameters with
the objects the field holds for them, `over` the keyword parameters, which is how the `describe` methods of the structural
fields pass the descriptions of their parts (sequence.py, map.py, structure.py, tuple.py, union.py). -/
noncomputable def hDescribe (env : Env) (n : Nat) (verbose : Bool) (type : Str) (aspects : List (Str × HVal))
    (table : List (Str × HVal × Val)) (over : List (Str × HVal)) : HM HVal := do
  let a ← alloc (.dict [(.atom (.str c!"fieldtype"), .atom (.str type))])
  hDescAspects env n a aspects
  hDescTable env n a verbose (over.map (·.1)) table
  hDescOver env n a verbose over
  return .ref a

end Scheme
