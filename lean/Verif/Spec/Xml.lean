import Verif.Model.Xml
import Verif.Spec.Instantiate

/-! Vocabulary for C43. -/

namespace Scheme

/-- Text made of characters XML allows, without carriage returns. -/
def XmlClean (s : Str) : Prop := ∀ c ∈ s, c = '\t' ∨ c = '\n' ∨ (32 ≤ c.toNat ∧ c.toNat ≠ 0xfffe ∧ c.toNat ≠ 0xffff)

/-- An ASCII letter or underscore followed by such characters, digits, hyphens and dots. -/
def XmlName (s : Str) : Prop :=
  ∃ c r, s = c :: r ∧ (('a' ≤ c ∧ c ≤ 'z') ∨ ('A' ≤ c ∧ c ≤ 'Z') ∨ c = '_') ∧
    ∀ x ∈ r, ('a' ≤ x ∧ x ≤ 'z') ∨ ('A' ≤ x ∧ x ≤ 'Z') ∨ x = '_' ∨ ('0' ≤ x ∧ x ≤ '9') ∨ x = '-' ∨ x = '.'

/-- The name of a field, or another one if it has none. -/
def tagName (other : Str) (f : Field) : Str :=
  match f.name with
  | some (c :: r) => c :: r
  | _ => other

/-- A leaf type whose values XML keeps as text. -/
def TextLeaf : Leaf → Prop
  | .boolean => False
  | .float .. => False
  | .integer .. => False
  | _ => True

/-- Native serialized values XML can carry for a schema: None anywhere, clean non-empty text, booleans, integers, floats
whose text is read as the same float; dicts keyed by distinct names, lists, and tuples of the right length. -/
inductive XmlValue (env : Env) : Field → Val → Prop
  | null {f} : XmlValue env f .none
  | boolean {c b} : XmlValue env (.leaf c .boolean) (.bool b)
  | integer {c mn mx i} : XmlValue env (.leaf c (.integer mn mx)) (.int i)
  | float {c mn mx x} : env.floatOfStr (env.str (.float x)) = some x → env.str (.float x) ≠ [] → XmlClean (env.str (.float x)) →
      XmlValue env (.leaf c (.float mn mx)) (.float x)
  | text {c k s} : TextLeaf k → s ≠ [] → XmlClean s → XmlValue env (.leaf c k) (.str s)
  | sequence {c item mn mx u l} (g : Field) : (∀ x ∈ l, resolve env item = some g ∧ XmlName (tagName c!"item" g)) →
      (∀ x ∈ l, XmlValue env g x) → XmlValue env (.sequence c item mn mx u) (.list l)
  | map {c key value req d} (g : Field) : (d.map (·.1)).Nodup →
      (∀ e ∈ d, resolve env value = some g ∧ ∃ k, e.1 = .str k ∧ XmlName k) →
      (∀ e ∈ d, XmlValue env g e.2) → XmlValue env (.map c key value req) (.dict d)
  | structure {c defn s ko d} (g : Str → Field) : (d.map (·.1)).Nodup →
      (∀ e ∈ d, ∃ k f, e.1 = .str k ∧ XmlName k ∧ defn.lookup k = some f ∧ resolve env f = some (g k)) →
      (∀ e ∈ d, ∀ k, e.1 = .str k → XmlValue env (g k) e.2) → XmlValue env (.structure c defn s ko) (.dict d)
  | tuple {c fs l} (gs : List Field) : fs.map (resolve env) = gs.map some → l.length = fs.length →
      (∀ g ∈ gs, XmlName (tagName c!"value" g)) → (∀ p ∈ gs.zip l, XmlValue env p.1 p.2) → XmlValue env (.tuple c fs) (.tuple l)

end Scheme
