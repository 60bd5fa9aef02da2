import Verif.Model.HeapElement
import Verif.Spec.Traverse
import Verif.Spec.Sharing

/-! Vocabulary for C94: elements as objects. -/

namespace Scheme

/-- Named objects are these named values, looking only at the given cells. -/
inductive DepictsP (A : Cells) : List (Str × HVal) → List (Str × Val) → Prop
  | nil : DepictsP A [] []
  | cons {name x v l vs} : Depicts A x v → DepictsP A l vs → DepictsP A ((name, x) :: l) ((name, v) :: vs)

/-- The same for each identity. -/
inductive DepictsV (A : Cells) : List (Val × List (Str × HVal)) → List (Val × Val) → Prop
  | nil : DepictsV A [] []
  | cons {i d vs l ws} : DepictsP A d vs → DepictsV A l ws →
      DepictsV A ((i, d) :: l) ((i, .dict (vs.map fun e => (.str e.1, e.2))) :: ws)

/-- `__attrs__` consists of objects with these values. -/
inductive DepictsA (A : Cells) : Option HElAttrs → Option ElAttrs → Prop
  | none : DepictsA A none none
  | plain {d vs} : DepictsP A d vs → DepictsA A (some (.plain d)) (some (.plain (vs.map fun e => (.str e.1, e.2))))
  | poly {on l ws} : DepictsV A l ws → DepictsA A (some (.poly on l)) (some (.poly on ws))
  | value {name x v} : Depicts A x v → DepictsA A (some (.value name x)) (some (.value name v))

/-- The defaults of every class are objects made of the given cells. -/
def ClassesIn (A : Cells) (H : Nat → Option HElAttrs) (st : Elements) : Prop :=
  ∀ j, DepictsA A (H j) ((st.classes[j]?).getD elementCls).attrs

/-- The instance whose `__dict__` is at `a` has these attributes. -/
def ElemIn (A : Cells) (a : Nat) (e : Elem) : Prop := Depicts A (.ref a) (.dict (e.attrs.map fun x => (.str x.1, x.2)))

/-- The object that is the attribute `name` of the instance whose `__dict__` is at `a`. -/
def Attr (h : Heap) (a : Nat) (name : Str) (x : HVal) : Prop := ∃ d, h[a]? = some (.dict d) ∧ (.atom (.str name), x) ∈ d

/-- An instance of the same class with the same attributes was made, read off the given cells; the address of its `__dict__` is
not below `m`. -/
def MadeElem (A : Cells) (m : Nat) : Option (Nat × Nat) → Option Elem → Prop
  | none, none => True
  | some p, some e => p.1 = e.cls ∧ m ≤ p.2 ∧ ElemIn A p.2 e
  | _, _ => False

/-- The outcome of making an element on the heap is that on values: the same exception, or the same instance. -/
def SameElem (A : Cells) (m : Nat) (o : Except Exn (Option (Nat × Nat))) (r : Except Exn (Option Elem)) : Prop :=
  match o, r with
  | .ok p, .ok e => MadeElem A m p e
  | .error e, .error e' => e = e'
  | _, _ => False

/-- The class has this object as default of the attribute (for some identity). -/
def HElAttrs.Has : HElAttrs → Str → HVal → Prop
  | .plain d, name, x => (name, x) ∈ d
  | .value n y, name, x => name = n ∧ x = y
  | .poly _ variants, name, x => ∃ e ∈ variants, (name, x) ∈ e.2

/-- The constant of a field is an object without parts. -/
def AtomConst (f : Field) : Prop := ∀ c, f.common? = some c → c.constant.isAtom = true

end Scheme
