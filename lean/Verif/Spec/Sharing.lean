import Verif.Model.Heap
import Verif.Spec.Schema

/-! Which fields keep what they are given apart from what they return. -/

namespace Scheme

/-- Field types whose values cannot be containers, so that there is nothing to share: all but Field, Object,
Definition, Error, Surrogate, and an Enumeration of containers. -/
def PartFree : Field → Prop
  | .leaf _ k => match k with
    | .any => False
    | .object => False
    | .definition _ => False
    | .error => False
    | .surrogate _ => False
    | .enumeration vals _ => ∀ v ∈ vals, v.isAtom = true
    | _ => True
  | _ => True

/-- A field without preprocessor, whose required keys (if it is a map) are texts or other values without
parts. -/
def Ungrouped (g : Field) : Prop :=
  (∀ c, g.common? = some c → c.pre = none) ∧ ∀ c k v r, g = .map c k v r → ∀ x ∈ r, x.isAtom = true

/-- Preprocessors only make new objects and leave existing ones alone. -/
def SafeHooks (E : HEnv) : Prop :=
  ∀ n x h, h.length ≤ ((E.pre n x).run h).2.length ∧ ∀ i, i < h.length → ((E.pre n x).run h).2[i]? = h[i]?

/-- Reading descriptions takes nothing out of them. -/
def HEnv.quiet (E : HEnv) : HEnv := { E with take := fun _ _ => pure () }

/-- The field is neither a Definition nor a Surrogate, which read field descriptions. -/
def Undescribed (g : Field) : Prop := ∀ c k, g = .leaf c k → (∀ valid, k ≠ .definition valid) ∧ ∀ valid, k ≠ .surrogate valid

/-- The call reads no field descriptions: nothing is unserialized, or there is no Definition and no Surrogate in the
schema. -/
def Spared (env : Env) (f : Field) (ph : Phase) (ser : Bool) : Prop :=
  ser = false ∨ ph = .outbound ∨ Everywhere env Undescribed f

/-- The objects made between two moments. -/
def made (h h' : Heap) : Cells := fun i => if i < h.length then none else h'[i]?

/-- Defaults are objects of the heap: that of each field reads as its declared default. -/
def DefaultsIn (env : Env) (E : HEnv) (A : Cells) (f : Field) : Prop :=
  Everywhere env (fun g => ∀ c, g.common? = some c → Depicts A (E.dflt c) c.default) f

/-- The outcome of a call on the heap is the outcome on values, the result being read off the given cells. -/
def SameOutcome (A : Cells) (o : Except Exn HVal) (r : Except Exn Val) : Prop :=
  match o, r with
  | .ok y, .ok w => Depicts A y w
  | .error e, .error e' => e = e'
  | _, _ => False

end Scheme
