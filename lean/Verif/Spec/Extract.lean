import Verif.Spec.Conforms
import Verif.Model.Extract

/-! What extraction may return, and from which subjects it succeeds. -/

namespace Scheme

mutual
/-- `w` was part of `v`: it is `v`, or a list or dict made of parts of the items of `v`. -/
inductive PartOf : Val → Val → Prop
  | whole (v : Val) : PartOf v v
  | list {l l' : List Val} {v w : Val} : (v = .list l ∨ v = .tuple l) → (w = .list l' ∨ w = .tuple l') →
      PartsOf l' l → PartOf w v
  /-- `src e` is the value the subject has under the key of the entry `e` -/
  | dict {d out : List (Val × Val)} (src : Val × Val → Val) : (∀ e ∈ out, (e.1, src e) ∈ d) →
      (∀ e ∈ out, PartOf e.2 (src e)) → PartOf (.dict out) (.dict d)
/-- The first list consists of parts of items of the second one, in the same order. -/
inductive PartsOf : List Val → List Val → Prop
  | nil (l : List Val) : PartsOf [] l
  | skip {l' l : List Val} (v : Val) : PartsOf l' l → PartsOf l' (v :: l)
  | take {l' l : List Val} {w v : Val} : PartOf w v → PartsOf l' l → PartsOf (w :: l') (v :: l)
end

/-- The field has no extractor. -/
def NoExtractor (f : Field) : Prop := ∀ c, f.common? = some c → c.extor = none

/-- The field is not a union. -/
def NotUnion (f : Field) : Prop := ∀ c fs, f ≠ .union c fs

/-- Member names are distinct, and each variant of a polymorphic structure has the discriminator (a
non-structural field) among its members (structure.py:97-100). -/
def GoodNames : Field → Prop
  | .structure _ defn _ _ => (defn.map (·.1)).Nodup
  | .poly _ disc vs _ _ => ∀ v ∈ vs, (v.2.map (·.1)).Nodup ∧ ∃ c k, v.2.lookup (disc.name.getD []) = some (.leaf c k)
  | _ => True

/-- The variant of a polymorphic structure whose identity equals `id`. -/
def variantIn : List (Val × List (Str × Field)) → Val → Option (List (Str × Field))
  | vs, id => (vs.find? fun e => pyEq id e.1).map (·.2)

/-- The subject has the shape a schema without unions and extractors extracts from.  Members that are absent or
None are skipped, members that are not declared are ignored; a tuple may have more values than fields; a falsy
identity extracts nothing, unless the subject has a key equal to an identity (`falsy` says whether such identities
are considered). -/
inductive Extractable (env : Env) (falsy : Bool) : Field → Val → Prop
  | null {f} : (∀ s, f ≠ .undef s) → Extractable env falsy f .none
  | leaf {c k v} : Extractable env falsy (.leaf c k) v
  | sequence {c item mn mx u l v} : (v = .list l ∨ v = .tuple l) →
      (l ≠ [] → ∃ g, resolve env item = some g) → (∀ g, resolve env item = some g → ∀ x ∈ l, Extractable env falsy g x) →
      Extractable env falsy (.sequence c item mn mx u) v
  | map {c key value req d} : (d ≠ [] → ∃ g, resolve env value = some g) →
      (∀ g, resolve env value = some g → ∀ e ∈ d, Extractable env falsy g e.2) →
      Extractable env falsy (.map c key value req) (.dict d)
  | tuple {c fs l v} : (v = .list l ∨ v = .tuple l) → fs.length ≤ l.length →
      (∀ p ∈ fs.zip l, ∃ g, resolve env p.1 = some g) →
      (∀ p ∈ fs.zip l, ∀ g, resolve env p.1 = some g → Extractable env falsy g p.2) → Extractable env falsy (.tuple c fs) v
  | structure {c defn s ko d} :
      (∀ e ∈ defn, ∀ x, given d e.1 = some x → x ≠ .none → ∃ g, resolve env e.2 = some g) →
      (∀ e ∈ defn, ∀ x, given d e.1 = some x → x ≠ .none → ∀ g, resolve env e.2 = some g → Extractable env falsy g x) →
      Extractable env falsy (.structure c defn s ko) (.dict d)
  | variant {c disc vs s ko d id defn} : given d (disc.name.getD []) = some id → id.truthy = true → hashable id = true →
      variantIn vs id = some defn →
      (∀ e ∈ defn, ∀ x, given d e.1 = some x → x ≠ .none → ∃ g, resolve env e.2 = some g) →
      (∀ e ∈ defn, ∀ x, given d e.1 = some x → x ≠ .none → ∀ g, resolve env e.2 = some g → Extractable env falsy g x) →
      Extractable env falsy (.poly c disc vs s ko) (.dict d)
  | nothing {c disc vs s ko d id} : falsy = true → given d (disc.name.getD []) = some id → id.truthy = false →
      (∀ e ∈ vs, dictGet d e.1 = none ∨ dictGet d e.1 = some .none) → Extractable env falsy (.poly c disc vs s ko) (.dict d)

end Scheme
