import Verif.Spec.Reordered
import Verif.Spec.Extract

/-! Extraction from subjects that differ in the order of dict entries. -/

namespace Scheme

/-- Two outcomes of extraction agree up to `R`: both succeed, both say that the field is excluded, or both fail otherwise (possibly in
different ways). -/
def TakenAlike {α : Type} (R : α → α → Prop) (p q : Except Exn α) : Prop :=
  (∃ e e', e ≠ .excluded ∧ e' ≠ .excluded ∧ p = .error e ∧ q = .error e') ∨
    (p = .error .excluded ∧ q = .error .excluded) ∨ ∃ w w', p = .ok w ∧ q = .ok w' ∧ R w w'

/-- What extractors return does not depend on the order of entries, and has no key twice in a dict. -/
def OrderlyExtractors (o : Outer) : Prop := ∀ h f v v', KeyedOnce v → SameData v v' →
  (∃ e e', o.ext h f v = .error e ∧ o.ext h f v' = .error e') ∨ ∃ w w', o.ext h f v = .ok w ∧ o.ext h f v' = .ok w' ∧ KeyedOnce w ∧ SameData w w'

/-- The attributes of lists and tuples do not depend on the order of entries in dicts in them. -/
def OrderlyAttributes (o : Outer) : Prop := ∀ v v' k, SameData v v' → o.getattr v k = o.getattr v' k

/-- The identities of a polymorphic structure are texts. -/
def TextIdentities : Field → Prop
  | .poly _ _ vs _ _ => ∀ e ∈ vs, ∃ s, e.1 = .str s
  | _ => True

end Scheme
