import Verif.Model.Process

/-! Vocabulary used in the statements of properties: errors, schemas, reachability. -/

namespace Scheme

/-- The dict describing one error, as found in `StructuralError.errors`. -/
def errItem (token title message : Str) : Val :=
  .dict [(.str c!"token", .str token), (.str c!"title", .str title), (.str c!"message", .str message)]

/-- The call raised an error of class `cls` located at `anc`, about value `v`, with exactly one error
entry, whose token is `token`, and no nested structure. -/
def Raises (r : Except Exn Val) (cls : ErrCls) (anc : List Str) (v : Val) (token : Str) : Prop :=
  ∃ title msg, r = .error (.structural ⟨cls, anc, [errItem token title msg], .none, v⟩)

/-- A message template that uses nothing but the field name. -/
def fieldOnly (e : FErr) : Prop := ∀ p ∈ e.message, (∃ s, p = .lit s) ∨ p = .ref c!"field"

/-- The user supplied error messages (`errors=` argument) of this field only mention the field. -/
def plainErrors (f : Field) : Prop :=
  match f.common? with
  | some c => ∀ e ∈ c.errors, fieldOnly e
  | none => True

/-- `g` is an immediate sub-field of `f` (with placeholders followed to their definition). -/
inductive Child (env : Env) : Field → Field → Prop
  | item {c item mn mx u g} : resolve env item = some g → Child env (.sequence c item mn mx u) g
  | key {c k v r} : Child env (.map c (some k) v r) k
  | value {c k v r g} : resolve env v = some g → Child env (.map c k v r) g
  | tuple {c vs f g} : f ∈ vs → resolve env f = some g → Child env (.tuple c vs) g
  | union {c fs f g} : f ∈ fs → resolve env f = some g → Child env (.union c fs) g
  | member {c defn s ko n f g} : (n, f) ∈ defn → resolve env f = some g →
      Child env (.structure c defn s ko) g
  | disc {c d vs s ko} : Child env (.poly c d vs s ko) d
  | variant {c d vs s ko i defn n f g} : (i, defn) ∈ vs → (n, f) ∈ defn → resolve env f = some g →
      Child env (.poly c d vs s ko) g

/-- `g` occurs somewhere in the schema `f`, following placeholders (so also in recursive schemas). -/
inductive Reach (env : Env) : Field → Field → Prop
  | refl {f} : Reach env f f
  | step {f g h} : Child env f g → Reach env g h → Reach env f h

/-- Every field occurring in the schema `f` satisfies `P`. -/
def Everywhere (env : Env) (P : Field → Prop) (f : Field) : Prop := ∀ g, Reach env f g → P g

theorem Everywhere.here {env : Env} {P : Field → Prop} {f : Field} (h : Everywhere env P f) : P f :=
  h f .refl

theorem Everywhere.child {env : Env} {P : Field → Prop} {f g : Field} (h : Everywhere env P f)
    (hc : Child env f g) : Everywhere env P g := fun _ hr => h _ (.step hc hr)

theorem Everywhere.mk' {env : Env} {P : Field → Prop} {f : Field} (h : P f)
    (hc : ∀ g, Child env f g → Everywhere env P g) : Everywhere env P f := by
  intro g hg
  cases hg with
  | refl => exact h
  | step hch hr => exact hc _ hch _ hr

/-- For recursive schemas: a set of fields closed under `Child`. -/
theorem Everywhere.of_closed {env : Env} {P : Field → Prop} {f : Field} (S : Field → Prop) (hf : S f)
    (hP : ∀ g, S g → P g) (hc : ∀ g h, S g → Child env g h → S h) : Everywhere env P f := by
  intro g hr
  induction hr with
  | refl => exact hP _ hf
  | step h _ ih => exact ih (hc _ _ hf h)

theorem Everywhere.leaf {env : Env} {P : Field → Prop} {c : Common} {k : Leaf} (h : P (.leaf c k)) :
    Everywhere env P (.leaf c k) := .mk' h (fun _ hc => by cases hc)

end Scheme
