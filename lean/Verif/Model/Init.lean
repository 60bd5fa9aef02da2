import Verif.Model.Field

/-! Field constructors (`__init__`), as far as they transform their arguments. -/

namespace Scheme

/-- `x is None or (isinstance(x, int) and x >= 0)`, giving the accepted bound (text.py:38-41,
sequence.py:47-54). -/
def lengthArg : Option Int → Option (Option Nat)
  | none => some none
  | some i => if 0 ≤ i then some (some i.toNat) else none

/-- `Text.__init__` (text.py:26-46): `nonempty` implies required, nonnull and a minimum length of 1
unless one is given. -/
def initText (c : Common) (pattern : Option Nat) (min max : Option Int) (strip nonempty : Bool) :
    Except PyErr Field :=
  let c : Common := if nonempty then { c with required := true, nonnull := true } else c
  let min : Option Int := if nonempty && min.isNone then some 1 else min
  match lengthArg min, lengthArg max with
  | some mn, some mx => .ok (.leaf c (.text pattern mn mx strip))
  | _, _ => .error .typeError

/-- `Email.__init__` (email.py:30-49) on top of `Text.__init__`: the caller's pattern, strip and
errors are discarded. -/
def initEmail (c : Common) (multiple extended : Bool) (min max : Option Int) (nonempty : Bool) :
    Except PyErr Field :=
  if multiple && extended then .error .valueError
  else
    match initText c none min max false nonempty with
    | .ok (.leaf c (.text _ mn mx _)) => .ok (.leaf c (.email mn mx multiple extended))
    | .ok f => .ok f
    | .error e => .error e

/-! ### Enumeration -/

/-- `list(set(l))` for hashable elements.  Simplification: Python gives no order; the model keeps first
occurrences in order. -/
def dedup : List Val → List Val
  | [] => []
  | v :: r => v :: (dedup r).filter fun x => !pyEq x v

inductive Strategy
  | append
  | replace
  | other

/-- `Enumeration.redefine(enumeration, strategy)` (enumeration.py:56-67), giving the new member list. -/
def redefineEnum (vals new : List Val) (s : Strategy) : Except PyErr (List Val) :=
  let build (l : List Val) : Except PyErr (List Val) :=
    if l.all hashable then .ok (dedup l) else .error .typeError
  match s with
  | .append => build (vals ++ new)
  | .replace => build ([] ++ new)
  | .other => .error .valueError

/-- A text argument of `Enumeration` or `redefine` is split at spaces (enumeration.py:20-21, 57-58). -/
def enumOfText (s : Str) : List Val := (splitOn ' ' s).map .str

end Scheme
