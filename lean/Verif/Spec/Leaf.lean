import Verif.Spec.Schema

/-! Vocabulary for the statements about non-structural fields. -/

namespace Scheme

/-- The value agrees with the field's `constant`, if there is one. -/
def ConstOk (c : Common) (v : Val) : Prop := c.constant = .none ∨ pyEq v c.constant = true

/-- No user preprocessor, and not one of the Email fields that preprocess by themselves. -/
def NoPre (c : Common) (k : Leaf) : Prop :=
  c.pre = none ∧ ∀ mn mx mult ext, k = .email mn mx mult ext → ext = true

/-- `v` is not treated as null: it is not `None` and not an ignored value of an Enumeration. -/
def NotNull (k : Leaf) (v : Val) : Prop :=
  v ≠ .none ∧ ∀ vals ign, k = .enumeration vals ign → ∀ w ∈ ign, pyEq v w = false

/-- Inclusive optional bounds with respect to an order. -/
def Within {α : Type} (le : α → α → Prop) (mn mx : Option α) (x : α) : Prop :=
  (∀ m, mn = some m → le m x) ∧ (∀ m, mx = some m → le x m)

end Scheme
