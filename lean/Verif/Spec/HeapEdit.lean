import Verif.Spec.Assemble
import Verif.Model.HeapEdit

/-! What editing a structure does to the objects around it. -/

namespace Scheme

namespace Stock

/-- The value at this address, if it is a field. -/
def given (p : Stock) : Option Nat → FieldArg
  | some i => if (p.fieldAt i).common?.isSome then some (p.fieldAt i) else none
  | none => none

/-- The values in a dict with these entries. -/
def givens (p : Stock) (l : List (Str × Option Nat)) : List (Str × FieldArg) := l.map fun e => (e.1, p.given e.2)

/-- All objects mentioned exist. -/
def Exist (p : Stock) (l : List (Str × Option Nat)) : Prop := ∀ k i, (k, some i) ∈ l → i < p.fields.length

/-- The members of the structure exist. -/
def HasMembers (p : Stock) (d : Nat) : Prop := d < p.dicts.length ∧ ∀ k i, (k, i) ∈ p.dicts[d]?.getD [] → i < p.fields.length

/-- The structure is edited in place: only its own dict is written to, no field object is changed, and the objects in the
dict are those that were there, those given, and new ones. -/
structure InPlace (p : Stock) (d : Nat) (l : List (Str × Option Nat)) (q : Stock) : Prop where
  fields : p.fields <+: q.fields
  length : q.dicts.length = p.dicts.length
  dict : ∀ d', d' ≠ d → q.dicts[d']? = p.dicts[d']?
  outers : q.outers = p.outers
  entry : ∀ k i, (k, i) ∈ q.dicts[d]?.getD [] → (∃ k', (k', i) ∈ p.dicts[d]?.getD []) ∨ (∃ k', (k', some i) ∈ l) ∨
    (p.fields.length ≤ i ∧ i < q.fields.length)

/-- No dict is changed, and field objects at most by calling them by the names they are given under. -/
structure Renames (p : Stock) (l : List (Str × Option Nat)) (q : Stock) : Prop where
  fields : p.fields.length ≤ q.fields.length
  field : ∀ i, i < p.fields.length → q.fieldAt i = p.fieldAt i ∨ ∃ k, (k, some i) ∈ l ∧ q.fieldAt i = withName k (p.fieldAt i)
  dict : ∀ d, d < p.dicts.length → q.dicts[d]? = p.dicts[d]?
  outers : q.outers = p.outers

/-- Nothing but an exception. -/
def raised : Except PyErr Unit → Option PyErr
  | .ok _ => none
  | .error e => some e

end Stock

end Scheme
