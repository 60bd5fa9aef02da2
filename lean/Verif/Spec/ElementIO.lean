import Verif.Spec.Calls
import Verif.Spec.Extract
import Verif.Model.ElementIO

/-! Attribute values an Element can keep. -/

namespace Scheme

/-- The field is not a placeholder, and has neither instantiator nor extractor. -/
def Hookless (f : Field) : Prop := ∃ c, f.common? = some c ∧ c.extor = none ∧ c.instor = none

/-- `v` is data of the schema `f`, complete and in order: lists for sequences, tuples of the right length, dicts whose
keys are declared names in the order of the declarations and which have no None members; no instantiators, extractors or
unions are met, and every placeholder met has its definition. -/
inductive Whole (env : Env) : Field → Val → Prop
  | null {f} : Hookless f → (∀ c fs, f ≠ .union c fs) → Whole env f .none
  | leaf {c k v} : Hookless (.leaf c k) → Whole env (.leaf c k) v
  | sequence {c item mn mx u l} : Hookless (.sequence c item mn mx u) → (l ≠ [] → ∃ g, resolve env item = some g) →
      (∀ x ∈ l, ∀ g, resolve env item = some g → Whole env g x) →
      Whole env (.sequence c item mn mx u) (.list l)
  | map {c key value req d} : Hookless (.map c key value req) → (d ≠ [] → ∃ g, resolve env value = some g) →
      (∀ e ∈ d, ∀ g, resolve env value = some g → Whole env g e.2) →
      Whole env (.map c key value req) (.dict d)
  | tuple {c fs l} : Hookless (.tuple c fs) → l.length = fs.length → (∀ p ∈ fs.zip l, ∃ g, resolve env p.1 = some g) →
      (∀ p ∈ fs.zip l, ∀ g, resolve env p.1 = some g → Whole env g p.2) →
      Whole env (.tuple c fs) (.tuple l)
  | structure {c defn s ko d} : Hookless (.structure c defn s ko) → (defn.map (·.1)).Nodup →
      (d.map (·.1)).Sublist (defn.map fun m => .str m.1) → (∀ e ∈ d, e.2 ≠ .none) →
      (∀ m ∈ defn, ∀ x, given d m.1 = some x → ∃ g, resolve env m.2 = some g) →
      (∀ m ∈ defn, ∀ x, given d m.1 = some x → ∀ g, resolve env m.2 = some g → Whole env g x) →
      Whole env (.structure c defn s ko) (.dict d)
  | poly {c disc vs s ko d id defn} : Hookless (.poly c disc vs s ko) → given d (disc.name.getD []) = some id →
      id.truthy = true → hashable id = true → variantIn vs id = some defn → (defn.map (·.1)).Nodup →
      (d.map (·.1)).Sublist (defn.map fun m => .str m.1) → (∀ e ∈ d, e.2 ≠ .none) →
      (∀ m ∈ defn, ∀ x, given d m.1 = some x → ∃ g, resolve env m.2 = some g) →
      (∀ m ∈ defn, ∀ x, given d m.1 = some x → ∀ g, resolve env m.2 = some g → Whole env g x) →
      Whole env (.poly c disc vs s ko) (.dict d)

end Scheme
