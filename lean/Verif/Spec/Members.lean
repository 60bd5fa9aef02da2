import Verif.Spec.Schema

/-! Independent description of what a structure does with one declared member. -/

namespace Scheme

/-- The value a member is given to process: the given one, unless it is a null to be ignored; for an
absent key the default, when processing inbound and not partially. -/
def memberInput (c : Common) (given : Option Val) (ph : Phase) (part : Bool) : Option Val :=
  match given with
  | some .none => if c.ignoreNull then none else some .none
  | some v => some v
  | none =>
    if part = true then none
    else match ph, c.default with
      | .outbound, _ => none
      | .inbound, .none => none
      | .inbound, v => some v

/-- The member is required, absent, and nothing replaces it. -/
def memberMissing (c : Common) (given : Option Val) (ph : Phase) (part : Bool) : Prop :=
  given = none ∧ part = false ∧ c.required = true ∧ memberInput c given ph part = none

/-- The value of a text key in a dict. -/
def given (d : List (Val × Val)) (name : Str) : Option Val :=
  (d.find? fun e => match e.1 with | .str s => s == name | _ => false).map (·.2)

/-- `name` is declared as (a placeholder for) the field `g` whose attributes are `c`. -/
def Declares (env : Env) (defn : List (Str × Field)) (name : Str) (g : Field) (c : Common) : Prop :=
  ∃ f, defn.lookup name = some f ∧ resolve env f = some g ∧ g.common? = some c

/-- Every declared member has its definition. -/
def Resolved (env : Env) (defn : List (Str × Field)) : Prop :=
  ∀ name f, defn.lookup name = some f → ∃ g c, resolve env f = some g ∧ g.common? = some c

/-- `r` is what a structure stores in the slot of the member `name`: nothing when there is no input,
otherwise the result of processing the input. -/
def SlotOk (env : Env) (n : Nat) (defn : List (Str × Field)) (d : List (Val × Val)) (ph : Phase)
    (ser part : Bool) (anc : List Str) (name : Str) (r : Option Val) : Prop :=
  ∃ g c, Declares env defn name g c ∧ ¬ memberMissing c (given d name) ph part ∧
    ((memberInput c (given d name) ph part = none ∧ r = none) ∨
     ∃ v w, memberInput c (given d name) ph part = some v ∧ r = some w ∧
       process env n g v ph ser (anc ++ ['.' :: name]) = .ok w)

/-- As `SlotOk`, but the member is bad: missing, or its own error is stored. -/
def SlotBad (env : Env) (n : Nat) (defn : List (Str × Field)) (d : List (Val × Val)) (ph : Phase)
    (ser part : Bool) (anc : List Str) (name : Str) (r : Option Val) : Prop :=
  ∃ g c, Declares env defn name g c ∧
    ((memberMissing c (given d name) ph part ∧
      ∃ t m, r = some (.exc .validation anc [errItem c!"required" t m] .none .none)) ∨
     ∃ v e, memberInput c (given d name) ph part = some v ∧
       r = some (.exc e.cls e.identity e.errors e.struct e.value) ∧
       process env n g v ph ser (anc ++ ['.' :: name]) = .error (.structural e))

/-- The dict made of the filled slots. -/
def slotDict (slots : List (Str × Option Val)) : List (Val × Val) :=
  slots.filterMap fun x => x.2.map fun v => (.str x.1, v)

end Scheme
