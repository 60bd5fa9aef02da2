import Verif.Model.Extract
import Verif.Spec.Schema

/-! What the parameters of `screen` and `filter` mean. -/

namespace Scheme

/-- The parameter `p = (attr, value)` of `filter` matches: the attribute equals the value, an attribute that is
missing or None counting as False. -/
def ParamMatches (o : Outer) (f : Field) (p : Str × Val) : Prop :=
  (attrOf o f p.1 ≠ .none ∧ pyEq (attrOf o f p.1) p.2 = true) ∨ (attrOf o f p.1 = .none ∧ pyEq (.bool false) p.2 = true)

/-- The field itself passes `filter(all, **params)`. -/
def Passes (o : Outer) (params : Params) (all : Bool) (f : Field) : Prop :=
  params = [] ∨ (all = true ∧ ∀ p ∈ params, ParamMatches o f p) ∨ (all = false ∧ ∃ p ∈ params, ParamMatches o f p)

/-- `g` is a direct child of `f` that `filter` looks at: not the fields of a union, not the key field of a map,
not a discriminator. -/
inductive Filterable (env : Env) : Field → Field → Prop
  | item {c item mn mx u g} : resolve env item = some g → Filterable env (.sequence c item mn mx u) g
  | value {c k v r g} : resolve env v = some g → Filterable env (.map c k v r) g
  | element {c vs f g} : f ∈ vs → resolve env f = some g → Filterable env (.tuple c vs) g
  | member {c defn s ko e g} : e ∈ defn → resolve env e.2 = some g → Filterable env (.structure c defn s ko) g
  | variant {c d vs s ko v e g} : v ∈ vs → e ∈ v.2 → e.1 ≠ d.name.getD [] → resolve env e.2 = some g →
      Filterable env (.poly c d vs s ko) g

/-- The fields below `f` that `filter` looks at. -/
inductive FilterBelow (env : Env) : Field → Field → Prop
  | child {f g} : Filterable env f g → FilterBelow env f g
  | step {f g h} : Filterable env f g → FilterBelow env g h → FilterBelow env f h

/-- Every structure (and every variant of a polymorphic one) that has members has one that passes. -/
def SomeMemberPasses (env : Env) (o : Outer) (params : Params) : Field → Prop
  | .structure _ defn _ _ => defn = [] ∨ ∃ e ∈ defn, ∃ g, resolve env e.2 = some g ∧ Passes o params true g
  | .poly _ _ vs _ _ => ∀ v ∈ vs, v.2 = [] ∨ ∃ e ∈ v.2, ∃ g, resolve env e.2 = some g ∧ Passes o params true g
  | _ => True

/-- The parameters name common attributes or aspects. -/
def OwnAttrs (o : Outer) (params : Params) : Prop := ∀ p ∈ params, ∀ f, o.attr f p.1 = none

end Scheme
