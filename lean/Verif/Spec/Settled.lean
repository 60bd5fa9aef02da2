import Verif.Spec.Tag
import Verif.Spec.Conforms
import Verif.Spec.Alternatives

/-! Schemas whose native results are fixed points of processing. -/

namespace Scheme

/-- What is known of `str.lower` outside ASCII: it yields at least one character, lower-casing again changes
nothing, and no separator (white space or punctuation in ASCII) is produced. -/
def LowerLaw (u : Chars) : Prop :=
  ∀ c : Char, 128 ≤ c.toNat → u.ulower c ≠ [] ∧ ∀ x ∈ u.ulower c, lower u [x] = [x] ∧ IsEmailSep x = false

/-- The restrictions on one field (not on its sub-fields).  See Props/Idempotence.lean for counterexamples to
idempotence without them.  Names must not repeat (a Python dict has no repeated name, and `key_order` is meant to
list each once); the discriminator must be declared in every variant, as the constructor of the code does. -/
def Settled (env : Env) (f : Field) : Prop :=
  (∀ c, f.common? = some c → c.pre = none ∧ (c.ignoreNull = true → c.default = .none ∧ c.required = false)) ∧
  match f with
  | .leaf c (.enumeration _ ign) => c.ignoreNull = true → ign = []
  | .leaf c .object => c.nonnull = false ∧ c.ignoreNull = false
  | .leaf c (.text _ _ _ true) => ∀ s, c.constant = .str s → TextForm env.u true s s
  | .leaf c (.datetime ..) => c.constant = .none
  | .leaf _ (.email _ _ _ false) => LowerLaw env.u
  | .structure _ defn _ ko => (visited defn ko).Nodup
  | .poly _ disc vs _ ko => ko = [] ∧ resolve env disc = some disc ∧ ∀ i defn, (i, defn) ∈ vs → i ≠ .none ∧
      (defn.map (·.1)).Nodup ∧ Tagged disc defn
  | .union c fs => NativesApart env c fs
  | _ => True

end Scheme
