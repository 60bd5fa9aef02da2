import Verif.Spec.Causes

/-! Schemas whose processing raises nothing but the library's own exceptions, whatever the candidate. -/

namespace Scheme

/-- Leaf types whose accepted values are plain scalars (text, bytes, numbers, dates, times, booleans). -/
def scalarLeaf : Leaf → Bool
  | .binary .. | .boolean | .date .. | .datetime .. | .decimal .. | .email .. | .float .. | .integer ..
  | .text .. | .time .. | .token _ | .uuid => true
  | _ => false

/-- The restrictions on one field (not on its sub-fields). -/
def Tidy (env : Env) (ph : Phase) (ser : Bool) (f : Field) : Prop :=
  plainErrors f ∧
  (∃ c, f.common? = some c ∧ c.pre = none) ∧
  (∀ p, Parts f p → ∃ g, resolve env p = some g) ∧
  (∀ name p, Declarations f name p → ∃ g c, resolve env p = some g ∧ g.common? = some c) ∧
  match f with
  | .leaf c (.enumeration ..) => c.constant = .none
  | .leaf _ (.binary ..) => ¬ (ph = .inbound ∧ ser = true)
  | .leaf _ (.date mn mx) => mn = none ∧ mx = none
  | .leaf _ (.datetime ..) => ∀ d tz, ∃ d', env.astz d tz = .ok d'
  | .leaf _ (.decimal mn mx) => mn = none ∧ mx = none
  | .leaf _ .error => ¬ (ph = .inbound ∧ ser = true)
  | .leaf _ (.surrogate valid) => valid = [] ∧ (∀ d, ∃ x, env.surrUnserialize d = .ok x) ∧
      ∀ h, ∃ x, env.surrSerialize h = .ok x
  | .leaf _ (.definition _) => ∀ h, ∃ x, env.describe h = .ok x
  | .sequence _ item _ _ true => ∃ c k, item = .leaf c k ∧ scalarLeaf k = true
  | .map _ (some key) _ req => (∃ c k, key = .leaf c k ∧ scalarLeaf k = true) ∧ ∀ k ∈ req, hashable k = true
  | .map _ none _ req => ∀ k ∈ req, hashable k = true
  | .poly _ dsc _ _ ko => ko = [] ∧ ∃ c k, dsc = .leaf c k ∧ scalarLeaf k = true
  | .structure _ defn _ ko => ∀ name ∈ ko, ∃ p, (name, p) ∈ defn
  | _ => True

/-- No dict met while processing has a key that is a tuple. -/
def NoTupleKeys (env : Env) (ph : Phase) (f : Field) (v : Val) : Prop :=
  ∀ g w, Involves env ph f v g w → ∀ d, w = .dict d → ∀ e ∈ d, ∀ l, e.1 ≠ .tuple l

end Scheme
