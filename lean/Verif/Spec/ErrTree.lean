import Verif.Model.Errors

/-! Error trees and their serialized form, by path. -/

namespace Scheme

/-- One step into a list or a dict. -/
inductive EStep
  | idx (i : Nat)
  | key (k : Val)

/-- `ErrChild st s c`: the structure `st` of an error has the child `c` at `s`. -/
inductive ErrChild : Val → EStep → Val → Prop
  | idx {l i c} : l[i]? = some c → ErrChild (.list l) (.idx i) c
  | key {d k c} : (k, c) ∈ d → ErrChild (.dict d) (.key k) c

/-- `NodeAt st p c`: following `p` through nested errors that have a structure leads to `c`. -/
inductive NodeAt : Val → List EStep → Val → Prop
  | last {st s c} : ErrChild st s c → NodeAt st [s] c
  | step {st s cls i es st' v p c} : ErrChild st s (.exc cls i es st' v) → st' ≠ .none → NodeAt st' p c →
      NodeAt st (s :: p) c

/-- `OutAt v p w`: following `p` through nested lists and dicts leads to `w`. -/
inductive OutAt : Val → List EStep → Val → Prop
  | here {v} : OutAt v [] v
  | step {v s x p w} : ErrChild v s x → OutAt x p w → OutAt v (s :: p) w

/-- How a single error is reported: dicts as they are, anything else as a message. -/
def reported (x : Val) : Val :=
  match x with
  | .dict d => .dict d
  | x => .dict [(.str c!"message", x)]

/-- `Shows c w`: `w` is what the serialized form holds for the child `c` of an error; for nested structures this says
how many entries or which keys it has. -/
inductive Shows : Val → Val → Prop
  | fine {c} : c.isExc = false → Shows c .none
  | errors {cls i es v} : Shows (.exc cls i es .none v) (.list (es.map reported))
  | list {cls i es l v m} : m.length = l.length → Shows (.exc cls i es (.list l) v) (.list m)
  | dict {cls i es d v m} : m.map (·.1) = (d.filter fun e => e.2.isExc).map (·.1) → Shows (.exc cls i es (.dict d) v) (.dict m)
  /-- a structure that is neither a list nor a dict -/
  | other {cls i es st v} : st ≠ .none → (∀ l, st ≠ .list l) → (∀ d, st ≠ .dict d) → Shows (.exc cls i es st v) .none

/-- The errors a history of calls adds. -/
def added : ErrOp → List Val
  | .append x => [x]
  | .merge xs => xs
  | _ => []

/-- The structure a call attaches. -/
def attached : ErrOp → Option Val
  | .attach st => some st
  | _ => none

/-- The errors after a history. -/
def errorsAfter (es : List Val) (h : List ErrOp) : List Val := es ++ h.flatMap added

/-- The structure after a history: the last one attached. -/
def structAfter (st : Val) (h : List ErrOp) : Val := (h.filterMap attached).getLast?.getD st

end Scheme
