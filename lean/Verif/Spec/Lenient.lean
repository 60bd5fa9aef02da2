import Verif.Spec.Relax
import Verif.Spec.Transform

/-! Transformers that replace fields by ones that demand less. -/

namespace Scheme

/-- No preprocessor on a field with parts; members have different names; no key order on a polymorphic structure; the
key field of a map is a simple field. -/
def Unhooked : Field → Prop
  | .leaf .. => True
  | .sequence c _ _ _ _ => c.pre = none
  | .map c key _ _ => c.pre = none ∧ ∀ k, key = some k → ∃ ck kk, k = .leaf ck kk
  | .tuple c _ => c.pre = none
  | .union .. => True
  | .structure c defn _ ko => c.pre = none ∧ (visited defn ko).Nodup
  | .poly c _ vs _ ko => c.pre = none ∧ ko = [] ∧ ∀ e ∈ vs, (e.2.map (·.1)).Nodup
  | .undef _ => False

/-- Nothing is replaced inside of a union (the union itself may be). -/
def UnionsKept (env : Env) (tr : Field → Answer) (f : Field) : Prop :=
  ∀ c vs, Asked env tr f (.union c vs) → tr (.union c vs) = .other →
    ∀ g, Asked env tr (.union c vs) g → ∀ g', tr g ≠ .field g'

/-- The transformer replaces simple fields only, and each by one that demands less. -/
def LenientLeaves (tr : Field → Answer) : Prop :=
  ∀ g g', tr g = .field g' → ∃ c c' k k', g = .leaf c k ∧ g' = .leaf c' k' ∧ LooserCommon c c' ∧ LooserLeaf k k'

end Scheme
