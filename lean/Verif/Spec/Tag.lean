import Verif.Model.Field

/-! The discriminator of a polymorphic structure among the members of its variants. -/

namespace Scheme

/-- The member `m` of a variant is the discriminator `disc` or, as the constructor makes it (structure.py:97-100), a
non-structural discriminator that is given a constant (copying it makes a new dictionary of its other attributes). -/
def TagOf (disc m : Field) : Prop :=
  m = disc ∨ ∃ c k x a, disc = .leaf c k ∧ c.constant = .none ∧ m = .leaf { c with constant := x, aspects := a } k

/-- Every variant has the discriminator among its members. -/
def Tagged (disc : Field) (defn : List (Str × Field)) : Prop :=
  ∃ m, defn.lookup (disc.name.getD []) = some m ∧ TagOf disc m

end Scheme
