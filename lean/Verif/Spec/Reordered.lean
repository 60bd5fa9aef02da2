import Verif.Spec.Interpolate

/-! Interpolation of subjects that differ in the order of dict entries. -/

namespace Scheme

/-- Two outcomes of interpolation agree up to `R`: both succeed, both lack a parameter, or both fail otherwise (possibly in different ways). -/
def AgreeUpTo {α : Type} (R : α → α → Prop) (p q : Except Exn α) : Prop :=
  (∃ e e', e ≠ .undefinedParameter ∧ e' ≠ .undefinedParameter ∧ p = .error e ∧ q = .error e') ∨
    (p = .error .undefinedParameter ∧ q = .error .undefinedParameter) ∨ ∃ w w', p = .ok w ∧ q = .ok w' ∧ R w w'

/-- No key occurs twice in a dict met in the value. -/
inductive KeyedOnce : Val → Prop
  | list {l} : (∀ v ∈ l, KeyedOnce v) → KeyedOnce (.list l)
  | tuple {l} : (∀ v ∈ l, KeyedOnce v) → KeyedOnce (.tuple l)
  | dict {d} : (d.map (·.1)).Nodup → (∀ e ∈ d, KeyedOnce e.2) → KeyedOnce (.dict d)
  | other {v} : (∀ l, v ≠ .list l) → (∀ l, v ≠ .tuple l) → (∀ d, v ≠ .dict d) → KeyedOnce v

/-- Making surrogates does not depend on the order of entries. -/
def OrderlySurrogates (t : Templates) : Prop := ∀ d d', SameData (.dict d) (.dict d') → AgreeUpTo SameData (t.surrogate d) (t.surrogate d')

end Scheme
