import Verif.Spec.Extract

/-! Instantiators and extractors that undo each other. -/

namespace Scheme

mutual
/-- The same data; only the order of dict entries may differ. -/
inductive SameData : Val → Val → Prop
  | refl (v : Val) : SameData v v
  | list {l l' : List Val} : SameItems l l' → SameData (.list l) (.list l')
  | tuple {l l' : List Val} : SameItems l l' → SameData (.tuple l) (.tuple l')
  | dict {d d' : List (Val × Val)} (e : List (Val × Val)) : d.Perm e → SameEntries e d' → SameData (.dict d) (.dict d')
inductive SameItems : List Val → List Val → Prop
  | nil : SameItems [] []
  | cons {v v' : Val} {l l' : List Val} : SameData v v' → SameItems l l' → SameItems (v :: l) (v' :: l')
inductive SameEntries : List (Val × Val) → List (Val × Val) → Prop
  | nil : SameEntries [] []
  | cons {k v v' : Val} {l l' : List (Val × Val)} : SameData v v' → SameEntries l l' → SameEntries ((k, v) :: l) ((k, v') :: l')
end

/-- The field has neither instantiator nor extractor, or has both and extracting undoes instantiating. -/
def Inverse (o : Outer) (f : Field) : Prop :=
  ∀ c, f.common? = some c → (c.instor = none ∧ c.extor = none) ∨
    ∃ hi he, c.instor = some hi ∧ c.extor = some he ∧
      ∀ v key x, v ≠ .none → o.inst hi f v key = .ok x → x ≠ .none ∧ o.ext he f x = .ok v

/-- The discriminator of a polymorphic structure is not instantiated. -/
def PlainDisc : Field → Prop
  | .poly _ disc vs _ _ => ∀ v ∈ vs, ∀ f, v.2.lookup (disc.name.getD []) = some f →
      ∃ c k, f = .leaf c k ∧ c.instor = none
  | _ => True

/-- `v` has the shape of the native values of a schema without unions: lists for sequences, tuples of the right
length for tuples, dicts with text keys and without None members for structures; the identity of a polymorphic
structure is truthy. -/
inductive Shaped (env : Env) : Field → Val → Prop
  | null {f} : Shaped env f .none
  | leaf {c k v} : Shaped env (.leaf c k) v
  | sequence {c item mn mx u l} : (∀ g, resolve env item = some g → ∀ x ∈ l, Shaped env g x) →
      Shaped env (.sequence c item mn mx u) (.list l)
  | map {c key value req d} : (∀ g, resolve env value = some g → ∀ e ∈ d, Shaped env g e.2) →
      Shaped env (.map c key value req) (.dict d)
  | tuple {c fs l} : l.length = fs.length → (∀ p ∈ fs.zip l, ∀ g, resolve env p.1 = some g → Shaped env g p.2) →
      Shaped env (.tuple c fs) (.tuple l)
  | structure {c defn s ko d} : (d.map (·.1)).Nodup → (∀ e ∈ d, e.2 ≠ .none) →
      (∀ e ∈ d, ∀ name f g, e.1 = .str name → defn.lookup name = some f → resolve env f = some g → Shaped env g e.2) →
      Shaped env (.structure c defn s ko) (.dict d)
  | poly {c disc vs s ko d id} : (d.map (·.1)).Nodup → (∀ e ∈ d, e.2 ≠ .none) →
      given d (disc.name.getD []) = some id → id.truthy = true →
      (∀ defn, variantIn vs id = some defn → ∀ e ∈ d, ∀ name f g, e.1 = .str name → defn.lookup name = some f →
        resolve env f = some g → Shaped env g e.2) →
      Shaped env (.poly c disc vs s ko) (.dict d)

end Scheme
