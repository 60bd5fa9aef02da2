import Verif.Model.Assemble

/-! What structures look like that are made of shared objects. -/

namespace Scheme

namespace Stock

/-- The field object at this address. -/
def fieldAt (p : Stock) (i : Nat) : Field := p.fields[i]?.getD (.undef 0)

/-- The members in the dict at this address. -/
def members (p : Stock) (d : Nat) : List (Str × Field) := (p.dicts[d]?.getD []).map fun e => (e.1, p.fieldAt e.2)

/-- The variants in a dict with these entries. -/
def variants (p : Stock) (o : List (Val × Nat)) : List (Val × List (Str × Field)) := o.map fun e => (e.1, p.members e.2)

/-- The dict of variants at this address. -/
def outerAt (p : Stock) (a : Nat) : List (Val × Nat) := p.outers[a]?.getD []

/-- The structure as a schema, as its dicts are now. -/
def schema (p : Stock) (s : Assembled) : Field := .poly s.common s.disc (p.variants (p.outerAt s.outer)) s.strict s.order

/-- The entry holds the members common to all variants. -/
def starred (o : List (Val × Nat)) : Option Nat := (o.find? fun e => pyEq (.str c!"*") e.1).map (·.2)

/-- The other entries. -/
def unstarred (o : List (Val × Nat)) : List (Val × Nat) := o.eraseP fun e => pyEq (.str c!"*") e.1

/-- The members common to all variants. -/
def commonOf (p : Stock) (o : List (Val × Nat)) : List (Str × Field) :=
  match starred o with
  | some d => p.members d
  | none => []

/-- The field has a name. -/
def HasName (f : Field) : Prop := ∃ ch r, f.name = some (ch :: r)

/-- The field with this name. -/
def withName (k : Str) (f : Field) : Field := f.setCommon fun c => { c with name := some k }

/-- The entries of all of these dicts. -/
def entriesOf (p : Stock) (ds : List Nat) : List (Str × Nat) := ds.flatMap fun d => p.dicts[d]?.getD []

/-- All of these entries are fields, and one without name is entered under one name only. -/
structure Tidy (p : Stock) (es : List (Str × Nat)) : Prop where
  field : ∀ e ∈ es, ∃ f c, p.fields[e.2]? = some f ∧ f.common? = some c
  name : ∀ e ∈ es, ∀ e' ∈ es, e.2 = e'.2 → ¬ HasName (p.fieldAt e.2) → e.1 = e'.1

end Stock

end Scheme
