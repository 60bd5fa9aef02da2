import Verif.Model.HeapExtract
import Verif.Spec.Sharing
import Verif.Lemmas.Heap
import Verif.Spec.Conforms
import Verif.Spec.Interpolate

/-! What is asked of the surroundings of extraction, instantiation and interpolation, and which objects their
results consist of. -/

namespace Scheme

/-- The dicts in a value, at any depth, have pairwise different keys, as Python dicts do. -/
inductive RealKeys : Val → Prop
  | list {l} : (∀ v ∈ l, RealKeys v) → RealKeys (.list l)
  | tuple {l} : (∀ v ∈ l, RealKeys v) → RealKeys (.tuple l)
  | dict {d} : DistinctKeys d → (∀ e ∈ d, RealKeys e.1) → (∀ e ∈ d, RealKeys e.2) → RealKeys (.dict d)
  | atom {v} : v.isAtom = true → RealKeys v

/-- Code on the heap leaves every object alone that exists when it starts. -/
def LeavesAlone {α : Type} (m : HM α) : Prop :=
  ∀ h, h.length ≤ (m.run h).2.length ∧ ∀ i, i < h.length → (m.run h).2[i]? = h[i]?

/-- The user's functions leave existing objects alone. -/
structure HOuter.Safe (O : HOuter) : Prop where
  ext : ∀ k f x, LeavesAlone (O.ext k f x)
  inst : ∀ k f x key, LeavesAlone (O.inst k f x key)
  getattr : ∀ x name, LeavesAlone (O.getattr x name)

/-- Evaluating templates leaves existing objects alone. -/
structure HTemplates.Safe (T : HTemplates) : Prop where
  evaluate : ∀ s, LeavesAlone (T.evaluate s)
  render : ∀ s, LeavesAlone (T.render s)
  surrogate : ∀ x, LeavesAlone (T.surrogate x)

/-- The outcome of code on the heap is that on values; its result is made of objects from `K` and new ones; no object
of the heap is changed. -/
def Computes (K : Nat → Prop) (m : HM HVal) (r : Except Exn Val) (h : Heap) : Prop :=
  (h.length ≤ (m.run h).2.length ∧ ∀ i, i < h.length → (m.run h).2[i]? = h[i]?) ∧
    SameOutcome (part (m.run h).2 fun i => K i ∨ h.length ≤ i) (m.run h).1 r

/-- The value functions describe the user's functions on every heap that extends `h0`; objects found as attributes are
made of cells in `K0`. -/
structure Describes (o : Outer) (O : HOuter) (K0 : Nat → Prop) (h0 : Heap) : Prop where
  ext : ∀ k f K h x v, (∀ i, K0 i → K i) → (∀ i, K i → i < h.length) → Retains h0 h → RealKeys v → Depicts (part h K) x v →
    Computes K (O.ext k f x) (o.ext k f v) h
  inst : ∀ k f K h x v y key, (∀ i, K0 i → K i) → (∀ i, K i → i < h.length) → Retains h0 h → Depicts (part h K) x v →
    Depicts (part h K) y key → Computes K (O.inst k f x y) (o.inst k f v key) h
  getattr : ∀ name K h x v, (∀ i, K0 i → K i) → (∀ i, K i → i < h.length) → Retains h0 h → RealKeys v → Depicts (part h K) x v →
    Computes K (O.getattr x (.atom name)) ((o.getattr v name).mapError .py) h
  extKeys : ∀ k f v w, o.ext k f v = .ok w → RealKeys w
  getattrKeys : ∀ v name w, o.getattr v name = .ok w → RealKeys w

/-- The same for templates: the parameters are made of cells in `K0`. -/
structure DescribesT (t : Templates) (T : HTemplates) (K0 : Nat → Prop) (h0 : Heap) : Prop where
  evaluate : ∀ s K h, (∀ i, K0 i → K i) → (∀ i, K i → i < h.length) → Retains h0 h → Computes K (T.evaluate s) (t.evaluate s) h
  render : ∀ s K h, (∀ i, K0 i → K i) → (∀ i, K i → i < h.length) → Retains h0 h → Computes K (T.render s) (t.render s) h
  surrogate : ∀ d K h x, (∀ i, K0 i → K i) → (∀ i, K i → i < h.length) → Retains h0 h → Depicts (part h K) x (.dict d) →
    Computes K (T.surrogate x) (t.surrogate d) h
  evaluateKeys : ∀ s w, t.evaluate s = .ok w → RealKeys w

/-- Member names of a structure are distinct; identities are values without parts. -/
def Declarable (f : Field) : Prop :=
  DistinctNames f ∧ ∀ c disc vs s ko, f = .poly c disc vs s ko → ∀ v ∈ vs, v.1.isAtom = true

/-- The field has no instantiator. -/
def NoInstantiator (f : Field) : Prop := ∀ c, f.common? = some c → c.instor = none

/-- An object is in a container. -/
def Cell.Has : Cell → HVal → Prop
  | .list l, x => x ∈ l
  | .tuple l, x => x ∈ l
  | .dict d, x => ∃ e ∈ d, e.1 = x ∨ e.2 = x
  | .set l, x => x ∈ l

/-- If the first object is a container of this heap, then the second is in it. -/
def Inner (h : Heap) (x y : HVal) : Prop := ∀ a c, x = .ref a → h[a]? = some c → c.Has y

/-- The second object was an attribute of the first. -/
def Attribute (O : HOuter) (x y : HVal) : Prop := ∃ name h h', (O.getattr x name).run h = (.ok y, h')

/-- The class of the container that a field's values are. -/
inductive IsDictField : Field → Prop
  | map {c k v r} : IsDictField (.map c k v r)
  | «structure» {c d s ko} : IsDictField (.structure c d s ko)
  | poly {c d vs s ko} : IsDictField (.poly c d vs s ko)

mutual
/-- `y` is what becomes of `x` in the hands of a field: for a leaf, an object related to `x` by `leaf`; for a field with
parts, a container listed in `own`, whose parts have been made of objects that `src` relates to `x`.  `own` lists
every container that was made, once for every place at which it occurs. -/
inductive Copied (env : Env) (src leaf : HVal → HVal → Prop) (A : Cells) : Field → HVal → HVal → List Nat → Prop
  | none {f} : Copied env src leaf A f (.atom .none) (.atom .none) []
  | leaf {c k x y} : leaf x y → Copied env src leaf A (.leaf c k) x y []
  | list {c item mn mx u x a ys own} : A a = some (.list ys) → CopiedL env src leaf A (.sequence c item mn mx u) x ys own →
      Copied env src leaf A (.sequence c item mn mx u) x (.ref a) (a :: own)
  | tuple {c fs x a ys own} : A a = some (.tuple ys) → CopiedL env src leaf A (.tuple c fs) x ys own →
      Copied env src leaf A (.tuple c fs) x (.ref a) (a :: own)
  | dict {f x a d own} : IsDictField f → A a = some (.dict d) → CopiedL env src leaf A f x (d.map (·.2)) own →
      Copied env src leaf A f x (.ref a) (a :: own)
  | union {c fs f g x y own} : f ∈ fs → resolve env f = some g → Copied env src leaf A g x y own →
      Copied env src leaf A (.union c fs) x y own
/-- The same of the parts of a container. -/
inductive CopiedL (env : Env) (src leaf : HVal → HVal → Prop) (A : Cells) : Field → HVal → List HVal → List Nat → Prop
  | nil {f x} : CopiedL env src leaf A f x [] []
  | cons {f x g x' y ys own owns} : Child env f g → src x x' → Copied env src leaf A g x' y own →
      CopiedL env src leaf A f x ys owns → CopiedL env src leaf A f x (y :: ys) (own ++ owns)
end

end Scheme
