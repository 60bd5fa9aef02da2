import Verif.Model.Element

/-! Vocabulary for C32. -/

namespace Scheme

/-- The polymorphic identity a class sets or inherits. -/
inductive HasIdentity (decls : List ElDecl) : Nat → Val → Prop
  | own {j d v} : decls[j]? = some d → d.identity = some v → HasIdentity decls j v
  | inherited {j d b v} : decls[j]? = some d → d.identity = none → d.base = some b → HasIdentity decls b v → HasIdentity decls j v

/-- The schema a class sets or inherits. -/
inductive HasSchema (decls : List ElDecl) : Nat → Nat → Prop
  | own {j d s} : decls[j]? = some d → d.schema = some s → HasSchema decls j s
  | inherited {j d b s} : decls[j]? = some d → d.schema = none → d.base = some b → HasSchema decls b s → HasSchema decls j s

/-- The class has an identity. -/
def Identified (decls : List ElDecl) (j : Nat) : Prop := ∃ v, HasIdentity decls j v ∧ v.truthy = true

/-- A class that heads a family: it has no identity, and a polymorphic schema. -/
def Heads (decls : List ElDecl) (mk : Nat → Except PyErr ElAttrs) (r : Nat) : Prop :=
  r < decls.length ∧ ¬ Identified decls r ∧ ∃ s on attrs, HasSchema decls r s ∧ mk s = .ok (.poly on attrs)

/-- The classes of a family: its head and the classes with an identity derived from one of them. -/
inductive Family (decls : List ElDecl) (r : Nat) : Nat → Prop
  | head : Family decls r r
  | derived {j d b} : decls[j]? = some d → d.base = some b → Identified decls j → Family decls r b → Family decls r j

/-- Every base is defined before the class. -/
def ElOrdered (decls : List ElDecl) : Prop := ∀ (j : Nat) (d : ElDecl), decls[j]? = some d → ∀ b, d.base = some b → b < j

end Scheme
