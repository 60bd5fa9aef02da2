import Verif.Spec.Faithful
import Verif.Spec.FloatOrder
import Verif.Spec.DecText
import Verif.Spec.Conforms

/-! Schemas that demand less than others. -/

namespace Scheme

/-- Order of datetimes in one zone. -/
def MomentBefore (a b : PDateTime) : Prop :=
  DateBefore a.date b.date ∨ a.date = b.date ∧ TimeBefore a.time b.time

/-- The lower bound is dropped or lowered. -/
def LowerMin {α : Type} (le : α → α → Prop) (mn mn' : Option α) : Prop :=
  ∀ m', mn' = some m' → ∃ m, mn = some m ∧ le m' m

/-- The upper bound is dropped or raised. -/
def HigherMax {α : Type} (le : α → α → Prop) (mx mx' : Option α) : Prop :=
  ∀ m', mx' = some m' → ∃ m, mx = some m ∧ le m m'

/-- Both bounds. -/
def Wider {α : Type} (le : α → α → Prop) (mn mn' mx mx' : Option α) : Prop := LowerMin le mn mn' ∧ HigherMax le mx mx'

/-- The second type of simple field demands less of values of the same kind. -/
inductive LooserLeaf : Leaf → Leaf → Prop
  | same (k) : LooserLeaf k k
  | binary {mn mx mn' mx'} : Wider (· ≤ ·) mn mn' mx mx' → LooserLeaf (.binary mn mx) (.binary mn' mx')
  | date {mn mx mn' mx'} : Wider (fun a b => ¬ DateBefore b a) mn mn' mx mx' → LooserLeaf (.date mn mx) (.date mn' mx')
  | time {mn mx mn' mx'} : Wider (fun a b => ¬ TimeBefore b a) mn mn' mx mx' → LooserLeaf (.time mn mx) (.time mn' mx')
  | datetime {mn mx mn' mx' utc} : Wider (fun a b => ¬ MomentBefore b a) mn mn' mx mx' →
      LooserLeaf (.datetime mn mx utc) (.datetime mn' mx' utc)
  | decimal {mn mx mn' mx'} : Wider DecLe mn mn' mx mx' → LooserLeaf (.decimal mn mx) (.decimal mn' mx')
  | float {mn mx mn' mx'} : Wider (fun a b => a ≠ .nan ∧ b ≠ .nan ∧ ¬ FloatBelow b a) mn mn' mx mx' →
      LooserLeaf (.float mn mx) (.float mn' mx')
  | integer {mn mx mn' mx'} : Wider (· ≤ ·) mn mn' mx mx' → LooserLeaf (.integer mn mx) (.integer mn' mx')
  | text {p p' mn mx mn' mx' s} : (p' = none ∨ p' = p) → Wider (· ≤ ·) mn mn' mx mx' →
      LooserLeaf (.text p mn mx s) (.text p' mn' mx' s)
  | email {mn mx mn' mx' m e} : Wider (· ≤ ·) mn mn' mx mx' → LooserLeaf (.email mn mx m e) (.email mn' mx' m e)
  | enumeration {vals vals' ign} : (∀ v ∈ vals, v ∈ vals') → LooserLeaf (.enumeration vals ign) (.enumeration vals' ign)
  | token {seg} : LooserLeaf (.token seg) (.token none)
  | definition {valid valid'} : (valid' = [] ∨ valid ≠ [] ∧ ∀ t ∈ valid, t ∈ valid') →
      LooserLeaf (.definition valid) (.definition valid')

/-- The second set of common attributes demands less, and replaces nothing that the first did not.  (Titles, notes
and error messages are free.) -/
structure LooserCommon (c c' : Common) : Prop where
  default : c'.default = c.default
  constant : c'.constant = .none ∨ c'.constant = c.constant
  nonnull : c'.nonnull = true → c.nonnull = true
  ignoreNull : c'.ignoreNull = c.ignoreNull
  required : c'.required = true → c.required = true
  pre : c'.pre = c.pre

/-- Children, with placeholders followed. -/
def LooserChild (env : Env) (R : Field → Field → Prop) (f f' : Field) : Prop :=
  ∀ g, resolve env f = some g → ∃ g', resolve env f' = some g' ∧ R g g'

/-- Members: each of the first has a looser one in the second, in the same order; a strict structure may get further
members that are optional and have no default. -/
structure LooserMembers (env : Env) (R : Field → Field → Prop) (strict : Bool) (order order' : List Str)
    (defn defn' : List (Str × Field)) : Prop where
  nodup : order.Nodup
  nodup' : order'.Nodup
  same : order'.filter (fun n => order.contains n) = order
  kept : ∀ name ∈ order, ∀ g c, Declares env defn name g c → ∃ g' c', Declares env defn' name g' c' ∧ R g g'
  added : ∀ name ∈ order', name ∉ order → strict = true ∧
    ∃ g c, Declares env defn' name g c ∧ c.required = false ∧ c.default = .none

/-- One level: the second field demands less, if `R` relates sub-fields to ones that demand less. -/
inductive Looser (env : Env) (R : Field → Field → Prop) : Field → Field → Prop
  | leaf {c c' k k'} : LooserCommon c c' → LooserLeaf k k' → Looser env R (.leaf c k) (.leaf c' k')
  | sequence {c c' item item' mn mx mn' mx' u u'} : LooserCommon c c' → c.pre = none → LooserChild env R item item' →
      Wider (· ≤ ·) mn mn' mx mx' → (u' = true → u = true) →
      Looser env R (.sequence c item mn mx u) (.sequence c' item' mn' mx' u')
  | tuple {c c' fs fs'} : LooserCommon c c' → c.pre = none → fs'.length = fs.length →
      (∀ (i : Nat) f f', fs[i]? = some f → fs'[i]? = some f' → LooserChild env R f f') →
      Looser env R (.tuple c fs) (.tuple c' fs')
  | map {c c' value value' req req'} : LooserCommon c c' → c.pre = none → LooserChild env R value value' →
      (∀ k ∈ req', k ∈ req) → Looser env R (.map c none value req) (.map c' none value' req')
  | keyedMap {c c' kf kf' value value' req req'} : LooserCommon c c' → c.pre = none → R kf kf' →
      LooserChild env R value value' → (∀ k ∈ req', k ∈ req) →
      Looser env R (.map c (some kf) value req) (.map c' (some kf') value' req')
  /-- only the last field of a union may be relaxed; further ones may follow -/
  | union {c c' fs f f' more} : LooserCommon c c' → LooserChild env R f f' →
      Looser env R (.union c (fs ++ [f])) (.union c' (fs ++ f' :: more))
  | unionMore {c c' fs more} : LooserCommon c c' → Looser env R (.union c fs) (.union c' (fs ++ more))
  | «structure» {c c' defn defn' strict strict' ko ko'} : LooserCommon c c' → c.pre = none →
      (strict' = true → strict = true) →
      LooserMembers env R strict (visited defn ko) (visited defn' ko') defn defn' →
      Looser env R (.structure c defn strict ko) (.structure c' defn' strict' ko')
  /-- further variants may be added -/
  | poly {c c' disc disc' vs vs' strict strict'} : LooserCommon c c' → c.pre = none → R disc disc' →
      disc'.name = disc.name → (strict' = true → strict = true) →
      (∀ e ∈ vs, (e.2.map (·.1)).Nodup) → (∀ e ∈ vs', (e.2.map (·.1)).Nodup) →
      (∀ id defn, variantFor vs id = some defn → ∃ defn', variantFor vs' id = some defn' ∧
        LooserMembers env R strict (defn.map (·.1)) (defn'.map (·.1)) defn defn') →
      Looser env R (.poly c disc vs strict []) (.poly c' disc' vs' strict' [])

/-- `R` relates fields to ones that demand less, at every level.  (A relation rather than an inductive definition, so
that recursive schemas are covered.) -/
def Relaxes (env : Env) (R : Field → Field → Prop) : Prop := ∀ f g, R f g → Looser env R f g

end Scheme
