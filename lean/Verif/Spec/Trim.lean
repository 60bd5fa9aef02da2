import Verif.Spec.Members
import Verif.Lemmas.Same
import Verif.Spec.Conforms

/-! Schemas from which members have been left out, and the values that go with them. -/

namespace Scheme

mutual
/-- `v'` is `v` without the entries of those members that `f` declares and `f'` does not, at every depth that both
schemas describe. -/
inductive Trim (env : Env) : Field → Field → Val → Val → Prop
  | same (f v) : Trim env f f v v
  | null (f f') : Trim env f f' .none .none
  | sequence {c c' item item' mn mn' mx mx' u u' l l'} : TrimItems env item item' l l' →
      Trim env (.sequence c item mn mx u) (.sequence c' item' mn' mx' u') (.list l) (.list l')
  | tupleOfList {c c' fs fs' l l'} : TrimSlots env fs fs' l l' → Trim env (.tuple c fs) (.tuple c' fs') (.list l) (.list l')
  | tuple {c c' fs fs' l l'} : TrimSlots env fs fs' l l' → Trim env (.tuple c fs) (.tuple c' fs') (.tuple l) (.tuple l')
  | map {c c' k k' value value' r r' d d'} : TrimValues env value value' d d' →
      Trim env (.map c k value r) (.map c' k' value' r') (.dict d) (.dict d')
  | structure {c c' defn defn' s s' ko ko' d d'} : TrimEntries env defn defn' d d' →
      Trim env (.structure c defn s ko) (.structure c' defn' s' ko') (.dict d) (.dict d')
/-- The items of a sequence. -/
inductive TrimItems (env : Env) : Field → Field → List Val → List Val → Prop
  | nil {item item'} : TrimItems env item item' [] []
  | cons {item item' g g' v v' l l'} : resolve env item = some g → resolve env item' = some g' → Trim env g g' v v' →
      TrimItems env item item' l l' → TrimItems env item item' (v :: l) (v' :: l')
/-- The values of a tuple. -/
inductive TrimSlots (env : Env) : List Field → List Field → List Val → List Val → Prop
  | nil : TrimSlots env [] [] [] []
  | cons {f f' g g' fs fs' v v' l l'} : resolve env f = some g → resolve env f' = some g' → Trim env g g' v v' →
      TrimSlots env fs fs' l l' → TrimSlots env (f :: fs) (f' :: fs') (v :: l) (v' :: l')
/-- The values of a map. -/
inductive TrimValues (env : Env) : Field → Field → List (Val × Val) → List (Val × Val) → Prop
  | nil {value value'} : TrimValues env value value' [] []
  | cons {value value' g g' k v v' d d'} : resolve env value = some g → resolve env value' = some g' → Trim env g g' v v' →
      TrimValues env value value' d d' → TrimValues env value value' ((k, v) :: d) ((k, v') :: d')
/-- The entries of a structure: those of a member that was left out go, those of other members are trimmed, and those
that are no member's stay. -/
inductive TrimEntries (env : Env) : List (Str × Field) → List (Str × Field) → List (Val × Val) → List (Val × Val) → Prop
  | nil {defn defn'} : TrimEntries env defn defn' [] []
  | drop {defn defn' name f v d d'} : defn.lookup name = some f → defn'.lookup name = none →
      TrimEntries env defn defn' d d' → TrimEntries env defn defn' ((.str name, v) :: d) d'
  | keep {defn defn' name f f' g g' v v' d d'} : defn.lookup name = some f → defn'.lookup name = some f' →
      resolve env f = some g → resolve env f' = some g' → Trim env g g' v v' →
      TrimEntries env defn defn' d d' → TrimEntries env defn defn' ((.str name, v) :: d) ((.str name, v') :: d')
  | other {defn defn' k v d d'} : (∀ name, k = .str name → defn.lookup name = none) →
      TrimEntries env defn defn' d d' → TrimEntries env defn defn' ((k, v) :: d) ((k, v) :: d')
end

/-- What a container and its parent read of its common attributes is the same, and there is no preprocessor. -/
structure SameDemand (c c' : Common) : Prop where
  default : c'.default = c.default
  nonnull : c'.nonnull = c.nonnull
  ignoreNull : c'.ignoreNull = c.ignoreNull
  required : c'.required = c.required
  pre : c.pre = none
  pre' : c'.pre = none

/-- Children, with placeholders followed. -/
def NarrowChild (env : Env) (R : Field → Field → Prop) (f f' : Field) : Prop :=
  ∀ g, resolve env f = some g → ∃ g', resolve env f' = some g' ∧ R g g'

/-- Key fields: none, or two that behave the same. -/
def SameKeys (env : Env) : Option Field → Option Field → Prop
  | none, none => True
  | some k, some k' => Same env k k'
  | _, _ => False

/-- Some members are left out and the others keep their order and their attributes.  The default of a member that has
itself lost members must not give them. -/
structure NarrowMembers (env : Env) (R : Field → Field → Prop) (defn defn' : List (Str × Field)) : Prop where
  nodup : (defn.map (·.1)).Nodup
  sub : (defn'.map (·.1)).Sublist (defn.map (·.1))
  kept : ∀ name f f', defn.lookup name = some f → defn'.lookup name = some f' → ∀ g c, resolve env f = some g →
    g.common? = some c → ∃ g' c', resolve env f' = some g' ∧ g'.common? = some c' ∧ R g g' ∧
      c'.default = c.default ∧ c'.ignoreNull = c.ignoreNull ∧ c'.required = c.required ∧ Trim env g g' c.default c.default

/-- The second field is the first, or the first with members left out somewhere below. -/
inductive Narrower (env : Env) (R : Field → Field → Prop) : Field → Field → Prop
  | same (f) : Narrower env R f f
  | sequence {c c' item item' mn mx u} : SameDemand c c' → NarrowChild env R item item' →
      Narrower env R (.sequence c item mn mx u) (.sequence c' item' mn mx u)
  | tuple {c c' fs fs'} : SameDemand c c' → fs'.length = fs.length →
      (∀ (i : Nat) f f', fs[i]? = some f → fs'[i]? = some f' → NarrowChild env R f f') → Narrower env R (.tuple c fs) (.tuple c' fs')
  | map {c c' key key' value value' req} : SameDemand c c' → SameKeys env key key' → NarrowChild env R value value' →
      Narrower env R (.map c key value req) (.map c' key' value' req)
  | structure {c c' defn defn' s} : SameDemand c c' → NarrowMembers env R defn defn' →
      Narrower env R (.structure c defn s []) (.structure c' defn' s [])

/-- A relation between schemas, recursive ones included, under which the second always is the first without some
members. -/
def Narrows (env : Env) (R : Field → Field → Prop) : Prop := ∀ f f', R f f' → Narrower env R f f'

/-- The dicts in a value, at any depth, have pairwise different keys, as Python dicts do. -/
inductive DistinctBelow : Val → Prop
  | list {l} : (∀ v ∈ l, DistinctBelow v) → DistinctBelow (.list l)
  | tuple {l} : (∀ v ∈ l, DistinctBelow v) → DistinctBelow (.tuple l)
  | dict {d} : DistinctKeys d → (∀ e ∈ d, DistinctBelow e.2) → DistinctBelow (.dict d)
  | other {v} : (∀ l, v ≠ .list l) → (∀ l, v ≠ .tuple l) → (∀ d, v ≠ .dict d) → DistinctBelow v

end Scheme
