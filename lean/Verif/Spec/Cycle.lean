import Verif.Spec.Instantiate
import Verif.Spec.Wire

/-! From data to application objects and back. -/

namespace Scheme

/-- As `Shaped`, and the members of a structure come in the order in which they are declared. -/
inductive InOrder (env : Env) : Field → Val → Prop
  | null {f} : InOrder env f .none
  | leaf {c k v} : InOrder env (.leaf c k) v
  | sequence {c item mn mx u l} : (∀ g, resolve env item = some g → ∀ x ∈ l, InOrder env g x) →
      InOrder env (.sequence c item mn mx u) (.list l)
  | map {c key value req d} : (∀ g, resolve env value = some g → ∀ e ∈ d, InOrder env g e.2) →
      InOrder env (.map c key value req) (.dict d)
  | tuple {c fs l} : l.length = fs.length → (∀ p ∈ fs.zip l, ∀ g, resolve env p.1 = some g → InOrder env g p.2) →
      InOrder env (.tuple c fs) (.tuple l)
  | structure {c defn s ko d} : (d.map (·.1)).Sublist (defn.map fun p => Val.str p.1) → (∀ e ∈ d, e.2 ≠ .none) →
      (∀ e ∈ d, ∀ name f g, e.1 = .str name → defn.lookup name = some f → resolve env f = some g → InOrder env g e.2) →
      InOrder env (.structure c defn s ko) (.dict d)
  | poly {c disc vs s ko d id defn} : given d (disc.name.getD []) = some id → id.truthy = true → variantIn vs id = some defn →
      (d.map (·.1)).Sublist (defn.map fun p => Val.str p.1) → (∀ e ∈ d, e.2 ≠ .none) →
      (∀ e ∈ d, ∀ name f g, e.1 = .str name → defn.lookup name = some f → resolve env f = some g → InOrder env g e.2) →
      InOrder env (.poly c disc vs s ko) (.dict d)

/-- No dict in `v` has an entry that is None. -/
def NoNulls (v : Val) : Prop := ∀ d, OccursIn (.dict d) v → ∀ e ∈ d, e.2 ≠ .none

/-- Members are read in the order in which they are declared, and identities are truthy. -/
def AsDeclared : Field → Prop
  | .structure _ _ _ ko => ko = []
  | .poly _ _ vs _ _ => ∀ v ∈ vs, v.1.truthy = true
  | _ => True

/-- The instantiator accepts everything. -/
def Accepting (o : Outer) (f : Field) : Prop :=
  ∀ c h, f.common? = some c → c.instor = some h → ∀ v key, ∃ x, o.inst h f v key = .ok x

end Scheme
