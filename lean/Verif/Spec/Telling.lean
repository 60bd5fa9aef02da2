import Verif.Spec.ErrTree
import Verif.Spec.Calls
import Verif.Spec.Conforms

/-! Errors that say what is wrong. -/

namespace Scheme

/-- The error has an entry of its own or at least one nested error. -/
def Telling (e : SErr) : Prop := e.errors ≠ [] ∨ ∃ s c, ErrChild e.struct s c ∧ c.isExc = true

/-- What a map may make of the key `k`. -/
def KeyOut (env : Env) (ph : Phase) (ser : Bool) (key : Option Field) (k x : Val) : Prop :=
  match key with
  | none => x = k
  | some kf => ∃ n anc, process env n kf k ph ser anc = .ok x

/-- `Clear env ph ser f v`: processing `v` with `f` does not overwrite entries: a map makes different keys of the given
ones, and no name is visited twice. -/
inductive Clear (env : Env) (ph : Phase) (ser : Bool) : Field → Val → Prop
  | leaf {c k v} : Clear env ph ser (.leaf c k) v
  | undef {s v} : Clear env ph ser (.undef s) v
  | sequence {c i mn mx u v} : Clear env ph ser (.sequence c i mn mx u) v
  | tuple {c fs v} : Clear env ph ser (.tuple c fs) v
  | map {c key value req v} : (∀ d, containerInput env c v = some (.dict d) →
        d.Pairwise fun a b => ∀ x y, KeyOut env ph ser key a.1 x → KeyOut env ph ser key b.1 y → pyEq y x = false) →
      Clear env ph ser (.map c key value req) v
  | union {c fs v} : (∀ f ∈ fs, ∀ g, resolve env f = some g → Clear env ph ser g v) → Clear env ph ser (.union c fs) v
  | «structure» {c defn strict ko v} : (visited defn ko).Nodup → Clear env ph ser (.structure c defn strict ko) v
  | poly {c disc vs strict ko v} : (∀ w, Clear env ph ser disc w) → (∀ i defn, (i, defn) ∈ vs → (visited defn ko).Nodup) →
      Clear env ph ser (.poly c disc vs strict ko) v

end Scheme
