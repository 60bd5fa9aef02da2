import Verif.Lemmas.Heap
import Verif.Model.HeapUtil
import Verif.Spec.Util

/-! When the dicts nested in a dict are not shared. -/

namespace Scheme

mutual
/-- The object is this value, and the dicts met by descending through dicts only are at these addresses, in this
order; all the rest is read off the cells at addresses in `P`. -/
inductive Owned (h : Heap) (P : Nat → Prop) : HVal → Val → List Nat → Prop
  | other {x v} : Depicts (part h P) x v → ¬ IsDict v → Owned h P x v []
  | dict {a d vs l} : h[a]? = some (.dict d) → OwnedD h P d vs l → Owned h P (.ref a) (.dict vs) (a :: l)
/-- The same for the entries of a dict. -/
inductive OwnedD (h : Heap) (P : Nat → Prop) : List (HVal × HVal) → List (Val × Val) → List Nat → Prop
  | nil : OwnedD h P [] [] []
  | cons {k x d vk v vs l m} : Depicts (part h P) k vk → Owned h P x v l → OwnedD h P d vs m →
      OwnedD h P ((k, x) :: d) ((vk, v) :: vs) (l ++ m)
end

/-- `a` is the address of a dict. -/
def DictAddr (h : Heap) (a : Nat) : Prop := ∃ d, h[a]? = some (.dict d)

/-- `x` refers to a dict. -/
def DictRef (h : Heap) (x : HVal) : Prop := ∃ a, x = .ref a ∧ DictAddr h a

/-- Which object is found under the key of an addition's entry `(k, x)` after merging it into a dict with the entries
`d`: the original's where both are dicts, the addition's otherwise. -/
def Chosen (h : Heap) (d : List (HVal × HVal)) (k x y : HVal) : Prop :=
  (∃ s, hdictGet h d k = some s ∧ DictRef h s ∧ DictRef h x ∧ y = s) ∨
  ((∀ s, hdictGet h d k = some s → ¬ (DictRef h s ∧ DictRef h x)) ∧ y = x)

end Scheme
