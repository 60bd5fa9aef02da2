import Verif.Model.HeapClone
import Verif.Spec.Calls
import Verif.Spec.Traverse

/-! What a deep copy is. -/

namespace Scheme

/-- Nothing in the object can be changed: it is not a container, or a tuple of such objects. -/
inductive Frozen (h : Heap) : HVal → Prop
  | atom {v} : Frozen h (.atom v)
  | tuple {a l} : h[a]? = some (.tuple l) → (∀ x ∈ l, Frozen h x) → Frozen h (.ref a)

/-- The object is this value, put together from containers made since `h`, except for those of `h` that cannot be changed. -/
def CopySince (h h' : Heap) (x : HVal) (v : Val) : Prop :=
  Depicts (part h' fun i => h.length ≤ i ∨ Frozen h (.ref i)) x v

end Scheme
