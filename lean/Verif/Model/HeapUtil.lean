import Verif.Model.Heap

/-! The helpers of scheme/util.py which work on nested dicts, as they act on Python's memory. -/

namespace Scheme

open HM

/-- `isinstance(x, dict)`: the address of the dict. -/
def dictAddr (x : HVal) : HM (Option Nat) :=
  match x with
  | .ref a => do
    match ← get a with
    | some (.dict _) => return some a
    | _ => return none
  | .atom _ => return none

/-- The value stored by one iteration of recursive_merge (util.py:144-148): `x` is the value of the addition,
`s` what the original holds under the key. -/
def hMergeVal (rec : Nat → Nat → HM HVal) (x : HVal) (s : Option HVal) : HM HVal :=
  match s with
  | none => return x
  | some s => do
    match ← dictAddr s, ← dictAddr x with
    | some o, some b => rec o b
    | _, _ => return x

/-- The loop of recursive_merge (util.py:143-148) for the dicts at `o` and `b`.  The items are taken from the
dict while it is iterated over: when its size is no longer `size`, the next step of the iteration raises
RuntimeError.  The argument counts the steps left. -/
noncomputable def hMergeLoop (rec : Nat → Nat → HM HVal) (o b size : Nat) : Nat → HM Unit
  | 0 => do
    match ← get b with
    | some (.dict d) => if d.length = size then return () else raise (.py .runtimeError)
    | _ => raise (.py .runtimeError)
  | left + 1 => do
    match ← get b with
    | some (.dict d) =>
      if d.length = size then
        match d[size - (left + 1)]? with
        | some (k, x) => do
          let s ← getItem o k
          let y ← hMergeVal rec x s
          putItem o k y
          hMergeLoop rec o b size left
        | none => raise (.py .runtimeError)
      else raise (.py .runtimeError)
    | _ => raise (.py .runtimeError)

/-- recursive_merge (util.py:142-149) for the dicts at these addresses, with `n` levels of call depth. -/
noncomputable def hMerge : Nat → Nat → Nat → HM HVal
  | 0, _, _ => raise (.py .recursionError)
  | n + 1, o, b => do
    match ← get b with
    | some (.dict d) =>
      hMergeLoop (hMerge n) o b d.length d.length
      return .ref o
    | _ => raise (.py .attributeError)

/-- The loop of traverse_to_key (util.py:253-262) over the segments of the path. -/
noncomputable def hTraverseSegs : HVal → List Str → HM HVal
  | x, [] => return x
  | x, k :: r => do
    match ← dictAddr x with
    | some a =>
      match ← getItem a (.atom (.str k)) with
      | some y => hTraverseSegs y r
      | none => raise (.py .keyError)
    | none => raise (.py .typeError)

/-- traverse_to_key (util.py:252-262) -/
noncomputable def hTraverseToKey (x : HVal) (path : Str) : HM HVal := hTraverseSegs x (splitOn '.' path)

/-- set_nested_value over the segments of the path (util.py:238-250). -/
noncomputable def hSetSegs : HVal → List Str → HVal → HM Unit
  | _, [], _ => return ()
  | x, [last], y => do
    match ← dictAddr x with
    | some a => putItem a (.atom (.str last)) y
    | none => raise (.py .typeError)
  | x, k :: k' :: r, y => do
    match ← dictAddr x with
    | some a =>
      match ← getItem a (.atom (.str k)) with
      | some x' => hSetSegs x' (k' :: r) y
      | none => raise (.py .keyError)
    | none => raise (.py .typeError)

/-- set_nested_value (util.py:234-250) -/
noncomputable def hSetNestedValue (subject : HVal) (path : Str) (y : HVal) : HM Unit :=
  hSetSegs subject (splitOn '.' path) y

end Scheme
