import Verif.Props.Clone
import Verif.Model.Filter

/-! What `transform` is meant to do. -/

namespace Scheme

/-- The fields a transformer is asked about: the field itself, and below a field for which it answers neither a field
nor False, the children (not the key field of a map). -/
inductive Asked (env : Env) (tr : Field → Answer) : Field → Field → Prop
  | self {f} : Asked env tr f f
  | item {c item mn mx u g h} : tr (.sequence c item mn mx u) = .other → resolve env item = some g → Asked env tr g h →
      Asked env tr (.sequence c item mn mx u) h
  | value {c k v r g h} : tr (.map c k v r) = .other → resolve env v = some g → Asked env tr g h →
      Asked env tr (.map c k v r) h
  | element {c vs f g h} : tr (.tuple c vs) = .other → f ∈ vs → resolve env f = some g → Asked env tr g h →
      Asked env tr (.tuple c vs) h
  | option {c vs f g h} : tr (.union c vs) = .other → f ∈ vs → resolve env f = some g → Asked env tr g h →
      Asked env tr (.union c vs) h
  | member {c defn s ko e g h} : tr (.structure c defn s ko) = .other → e ∈ defn → resolve env e.2 = some g →
      Asked env tr g h → Asked env tr (.structure c defn s ko) h

/-- The transformer answers with fields, not with placeholders. -/
def ProperAnswer (tr : Field → Answer) : Prop := ∀ f g, tr f = .field g → ∀ s, g ≠ .undef s

/-- `f'` is `f` with the transformer's replacements made.  `sub` gives the replacement of each child; a member
without a name is named by its key; a map's key field may be copied. -/
inductive Replaced (env : Env) (tr : Field → Answer) : Field → Field → Prop
  | field {f g} : tr f = .field g → Replaced env tr f g
  | stop {f} : tr f = .itself ∨ tr f = .no → Replaced env tr f f
  | leaf {c k} : tr (.leaf c k) = .other → Replaced env tr (.leaf c k) (.leaf c k)
  | sequence {c item item' mn mx u g g'} : tr (.sequence c item mn mx u) = .other → resolve env item = some g →
      resolve env item' = some g' → Replaced env tr g g' →
      Replaced env tr (.sequence c item mn mx u) (.sequence c item' mn mx u)
  | map {c k k' v v' r g g'} : tr (.map c k v r) = .other → (k' = k ∨ ∃ n, cloneKey (clone env n) k = .ok k') →
      resolve env v = some g → resolve env v' = some g' → Replaced env tr g g' →
      Replaced env tr (.map c k v r) (.map c k' v' r)
  | tuple {c vs vs'} (sub : Field → Field) : tr (.tuple c vs) = .other →
      All2 (fun f f' => ∃ g, resolve env f = some g ∧ resolve env f' = some (sub g)) vs vs' →
      (∀ f ∈ vs, ∀ g, resolve env f = some g → Replaced env tr g (sub g)) →
      Replaced env tr (.tuple c vs) (.tuple c vs')
  | union {c vs vs'} (sub : Field → Field) : tr (.union c vs) = .other →
      All2 (fun f f' => ∃ g, resolve env f = some g ∧ resolve env f' = some (sub g)) vs vs' →
      (∀ f ∈ vs, ∀ g, resolve env f = some g → Replaced env tr g (sub g)) →
      Replaced env tr (.union c vs) (.union c vs')
  | structure {c defn defn' s ko} (sub : Field → Field) : tr (.structure c defn s ko) = .other →
      All2 (fun e e' => e'.1 = e.1 ∧ ∃ g, resolve env e.2 = some g ∧ resolve env e'.2 = some (nameMember e.1 (sub g))) defn defn' →
      (∀ e ∈ defn, ∀ g, resolve env e.2 = some g → Replaced env tr g (sub g)) →
      Replaced env tr (.structure c defn s ko) (.structure c defn' s ko)

end Scheme
