import Verif.Model.HeapDescribe
import Verif.Spec.Calls
import Verif.Spec.HeapReconstruct

/-! The objects a description consists of. -/

namespace Scheme

mutual
/-- The object is this value, and these are the addresses of its containers, each as often as it is met; keys are not
containers. -/
inductive MadeOf (h : Heap) : HVal → Val → List Nat → Prop
  | atom {v} : v.isAtom = true → MadeOf h (.atom v) v []
  | list {a l vs m} : h[a]? = some (.list l) → MadeOfL h l vs m → MadeOf h (.ref a) (.list vs) (a :: m)
  | tuple {a l vs m} : h[a]? = some (.tuple l) → MadeOfL h l vs m → MadeOf h (.ref a) (.tuple vs) (a :: m)
  | dict {a d vs m} : h[a]? = some (.dict d) → MadeOfD h d vs m → MadeOf h (.ref a) (.dict vs) (a :: m)
/-- The same for the items of a list or tuple. -/
inductive MadeOfL (h : Heap) : List HVal → List Val → List Nat → Prop
  | nil : MadeOfL h [] [] []
  | cons {x v l vs m m'} : MadeOf h x v m → MadeOfL h l vs m' → MadeOfL h (x :: l) (v :: vs) (m ++ m')
/-- The same for the entries of a dict. -/
inductive MadeOfD (h : Heap) : List (HVal × HVal) → List (Val × Val) → List Nat → Prop
  | nil : MadeOfD h [] [] []
  | cons {k x v d vs m m'} : k.isAtom = true → MadeOf h x v m → MadeOfD h d vs m' →
      MadeOfD h ((.atom k, x) :: d) ((k, v) :: vs) (m ++ m')
end

/-- The object was put together from containers made since `h`, none of them used twice. -/
def OwnSince (h h' : Heap) (x : HVal) (v : Val) : Prop :=
  ∃ m, MadeOf h' x v m ∧ m.Nodup ∧ ∀ i ∈ m, h.length ≤ i

mutual
/-- Keys of dicts, at any depth, are not containers. -/
def AtomKeys : Val → Prop
  | .list l => AtomKeysL l
  | .tuple l => AtomKeysL l
  | .dict d => AtomKeysD d
  | _ => True
def AtomKeysL : List Val → Prop
  | [] => True
  | v :: r => AtomKeys v ∧ AtomKeysL r
def AtomKeysD : List (Val × Val) → Prop
  | [] => True
  | (k, v) :: r => k.isAtom = true ∧ AtomKeys v ∧ AtomKeysD r
end

/-- The objects held under these names are these values. -/
inductive HeldAs (h : Heap) : List (Str × HVal) → List (Str × Val) → Prop
  | nil : HeldAs h [] []
  | cons {name x v l vs} : Depicts h.cells x v → HeldAs h l vs → HeldAs h ((name, x) :: l) ((name, v) :: vs)

/-- The same for parameters with their defaults. -/
inductive HeldTable (h : Heap) : List (Str × HVal × Val) → List (Str × Val × Val) → Prop
  | nil : HeldTable h [] []
  | cons {name x v d l vs} : Depicts h.cells x v → HeldTable h l vs → HeldTable h ((name, x, d) :: l) ((name, v, d) :: vs)

/-- Values a description can be made of with `n` levels of call depth. -/
def DescribableIn (n : Nat) (v : Val) : Prop := AtomKeys v ∧ v.depth < n

/-- What a field holds for its aspects and parameters, and what is passed as keyword parameters. -/
structure Holding (h : Heap) (n : Nat) (c : Common) (structural : Bool) (table : List (Str × Val × Val)) (over : List (Str × Val))
    (xa : List (Str × HVal)) (xt : List (Str × HVal × Val)) (xo : List (Str × HVal)) : Prop where
  holdsAspects : HeldAs h xa c.aspects
  holdsTable : HeldTable h xt (baseTable c structural ++ table)
  holdsOver : HeldAs h xo over
  inAspects : ∀ e ∈ c.aspects, DescribableIn n e.2
  inTable : ∀ e ∈ baseTable c structural ++ table, DescribableIn n e.2.1
  inOver : ∀ e ∈ over, DescribableIn n e.2

/-- The descriptions of fields held as values have no containers as keys. -/
def PlainDescriptions (env : Env) : Prop := ∀ k w, env.describe k = .ok w → AtomKeys w

end Scheme
