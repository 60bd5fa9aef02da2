import Verif.Props.Map
import Verif.Spec.Instantiate
import Verif.Spec.Telling

/-! Values whose meaning does not depend on the order of dict entries. -/

namespace Scheme

/-- What is asked of the few leaf types that take containers: the functions of the environment they use do not look at the
order of entries; surrogates and errors are not read from containers. -/
def OrderlyLeaf (env : Env) (k : Leaf) (v : Val) : Prop :=
  match k with
  | .decimal .. => ∀ l l', SameItems l l' → env.decOfTuple l = env.decOfTuple l'
  | .definition _ => ∀ x y, SameData x y → env.reconstruct x = env.reconstruct y
  | .object => ∀ x y, SameData x y → env.identify x = env.identify y
  | .error => ∀ l, v ≠ .tuple l
  | .surrogate _ => ∀ d, v ≠ .dict d
  | _ => True

/-- The restrictions on one field and the value given to it: no preprocessor; the keys of a dict differ, those of a map also
after they are processed. -/
def Orderly (env : Env) (ph : Phase) (ser : Bool) (f : Field) (v : Val) : Prop :=
  (∀ c, f.common? = some c → c.pre = none) ∧
  match f with
  | .leaf _ k => OrderlyLeaf env k v
  | .map _ key _ _ => ∀ d, v = .dict d →
      d.Pairwise fun a b => ∀ x y, KeyOut env ph ser key a.1 x → KeyOut env ph ser key b.1 y → pyEq x y = false ∧ pyEq y x = false
  | .structure _ defn _ ko => (visited defn ko).Nodup ∧ ∀ d, v = .dict d → (d.map (·.1)).Nodup
  | .poly _ _ vs _ ko => ko = [] ∧ (∀ e ∈ vs, (e.2.map (·.1)).Nodup) ∧ ∀ d, v = .dict d → (d.map (·.1)).Nodup
  | _ => True

end Scheme
