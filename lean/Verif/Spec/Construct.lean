import Verif.Model.Process

/-! What a polymorphic structure is declared to be: independent of how the constructor builds it. -/

namespace Scheme

/-- What a declaration says about `name`: the members common to all variants win over the variant's own. -/
def declaredMember (own common : List (Str × Field)) (name : Str) : Option Field :=
  match common.lookup name with
  | some f => some f
  | none => own.lookup name

/-- `g` is how `f`, declared under `name`, is stored: placeholders that are defined are replaced by their definition, and a
field without name (or with an empty one) takes the key as its name; nothing else changes. -/
def StoredAs (env : Env) (name : Str) (f g : Field) : Prop :=
  (resolve env f = none ∧ g = f) ∨
  ∃ f', resolve env f = some f' ∧
    ((∃ nm, f'.name = some nm ∧ nm ≠ [] ∧ g = f') ∨
     ((f'.name = none ∨ f'.name = some []) ∧ g = f'.setCommon fun c => { c with name := some name }))

/-- `defn` are the members of the variant `id` declared as `own` in a structure with the members `common` in all variants,
polymorphic on `on`; `disc` is what is stored for the discriminator. -/
structure VariantMembers (env : Env) (on : Str) (disc : Field) (own common defn : List (Str × Field)) : Prop where
  /-- first the variant's own, then the common ones, then the discriminator -/
  keys : ∃ extra, defn.map (·.1) = own.map (·.1) ++ (common.map (·.1)).filter (fun k => k ∉ own.map (·.1)) ++ extra ∧
    (extra = [] ∧ (on ∈ own.map (·.1) ∨ on ∈ common.map (·.1)) ∨
     extra = [on] ∧ on ∉ own.map (·.1) ∧ on ∉ common.map (·.1))
  discriminator : defn.lookup on = some disc
  absent : ∀ name, name ≠ on → declaredMember own common name = none → defn.lookup name = none
  present : ∀ name f, name ≠ on → declaredMember own common name = some f → ∃ g, defn.lookup name = some g ∧ StoredAs env name f g

/-- The discriminator generated from a name: an Enumeration of the identities, required and not nullable. -/
structure GeneratedOn (on : Str) (ids : List Str) (disc : Field) : Prop where
  form : ∃ vals, disc = .leaf { name := some on, nonnull := true, required := true } (.enumeration vals []) ∧
    ∀ v, v ∈ vals ↔ ∃ s ∈ ids, v = .str s

end Scheme
