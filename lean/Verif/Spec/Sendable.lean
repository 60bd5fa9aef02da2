import Verif.Spec.Tag
import Verif.Spec.Faithful

/-! Schemas and native values that can be serialized. -/

namespace Scheme

/-- The restrictions on one field and the native value given to it: the conversions that depend on the outside
succeed, and what is compared after serialization compares as before. -/
def Sendable (env : Env) (f : Field) (v : Val) : Prop :=
  match f with
  /- the moment exists in UTC -/
  | .leaf _ (.datetime ..) => ∀ d, v = .datetime d → d.tz = some .utc ∨ ∃ x, env.astz d .utc = .ok x
  /- the object can be imported by a path -/
  | .leaf _ .object => v = .none ∨ (∃ s, v = .str s) ∨ ∃ s, env.identify v = some s
  /- the field can be described, the surrogate serialized -/
  | .leaf _ (.definition _) => ∀ h, v = .field h → ∃ s, env.describe h = .ok s
  | .leaf _ (.surrogate _) => ∀ h, v = .surr h → ∃ s, env.surrSerialize h = .ok s
  | .leaf .. => True
  /- unique items stay different -/
  | .sequence c item _ _ u => c.pre = none ∧ (u = true → ∀ l g, v = .list l → resolve env item = some g →
      (∀ x ∈ l, ∀ m a s, process env m g x .outbound true a = .ok s → hashable s = true) ∧
      l.Pairwise fun x y => ∀ m a b s t, process env m g x .outbound true a = .ok s →
        process env m g y .outbound true b = .ok t → pyEq s t = false)
  | .tuple c _ => c.pre = none
  /- keys stay keys, and required ones stay recognizable -/
  | .map c key _ req => c.pre = none ∧ ∀ d, v = .dict d →
      (∀ e ∈ d, ∀ m a s, KeyOk env m .outbound true a key e.1 s → hashable s = true ∧ ∃ st, keyStep env s = .ok st) ∧
      ∀ r ∈ req, ∃ e ∈ d, ∀ m a s, KeyOk env m .outbound true a key e.1 s → pyEq r s = true
  | .union .. => True
  | .structure c defn _ ko => c.pre = none ∧ (visited defn ko).Nodup
  /- the serialized discriminator selects the same variant -/
  | .poly c disc vs _ ko => c.pre = none ∧ ko = [] ∧ resolve env disc = some disc ∧
      (∀ i defn, (i, defn) ∈ vs → (defn.map (·.1)).Nodup ∧ Tagged disc defn) ∧
      ∀ d raw m a x, v = .dict d → given d (disc.name.getD []) = some raw → process env m disc raw .outbound true a = .ok x →
        hashable x = true ∧ variantFor vs x = variantFor vs raw
  | .undef _ => True

/-- Types whose serialized form is the native one. -/
def CarriedAsIs : Leaf → Prop
  | .any | .boolean | .email .. | .enumeration .. | .float .. | .integer .. | .text .. | .token .. | .uuid => True
  | _ => False

/-- Restrictions on a schema under which all its native values can be serialized. -/
def Sends (env : Env) : Field → Prop
  | .leaf _ (.datetime _ _ utc) => utc = true
  | .leaf _ .object => False
  | .leaf _ (.definition _) => False
  | .leaf _ (.surrogate _) => False
  | .leaf .. => True
  | .sequence c item _ _ u => c.pre = none ∧
      (u = true → ∃ c' k, resolve env item = some (.leaf c' k) ∧ CarriedAsIs k)
  | .tuple c _ => c.pre = none
  | .map c key _ _ => c.pre = none ∧ ∀ kf, key = some kf → ∃ c' k, kf = .leaf c' k ∧ CarriedAsIs k
  | .union .. => True
  | .structure c defn _ ko => c.pre = none ∧ (visited defn ko).Nodup
  | .poly c disc vs _ ko => c.pre = none ∧ ko = [] ∧ (∃ c' k, disc = .leaf c' k ∧ CarriedAsIs k) ∧
      ∀ i defn, (i, defn) ∈ vs → (defn.map (·.1)).Nodup ∧ Tagged disc defn
  | .undef _ => True

end Scheme
