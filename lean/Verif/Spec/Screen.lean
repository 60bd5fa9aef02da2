import Verif.Spec.Extract
import Verif.Spec.Filter

/-! What extraction with screening parameters takes from a subject. -/

namespace Scheme

/-- The field is wanted by the parameters: every parameter other than None equals the attribute of that name.  An
attribute that is missing or None equals none of them. -/
def Wanted (o : Outer) (params : Params) (f : Field) : Prop :=
  ∀ p ∈ params, p.2 ≠ .none → pyEq (attrOf o f p.1) p.2 = true

/-- The members of a subject a structure asks for, in the order of declaration: those declared, present and not None. -/
def askedOf (d : List (Val × Val)) (defn : List (Str × Field)) : List (Val × Field × Val) :=
  defn.filterMap fun e => ((given d e.1).filter fun x => !x.isNone).map fun x => (.str e.1, e.2, x)

mutual
/-- What the schema `f`, without unions and extractors, takes from the subject `v` when only the fields in `S` are
wanted.  A falsy identity takes nothing, unless the subject has a key equal to an identity (`falsy` says whether such
identities are considered). -/
inductive Screened (env : Env) (S : Field → Prop) (falsy : Bool) : Field → Val → Val → Prop
  | null {f : Field} : (∀ s, f ≠ .undef s) → S f → Screened env S falsy f .none .none
  | leaf {c : Common} {k : Leaf} {v : Val} : S (.leaf c k) → Screened env S falsy (.leaf c k) v v
  | sequence {c : Common} {item : Field} {mn mx : Option Nat} {u : Bool} {l : List Val} {v : Val} {out : List (Val × Val)} :
      S (.sequence c item mn mx u) → (v = .list l ∨ v = .tuple l) →
      Pieces env S falsy (l.map fun x => (.none, item, x)) out →
      Screened env S falsy (.sequence c item mn mx u) v (.list (out.map (·.2)))
  | map {c : Common} {key : Option Field} {value : Field} {req : List Val} {d out : List (Val × Val)} :
      S (.map c key value req) → Pieces env S falsy (d.map fun e => (e.1, value, e.2)) out →
      Screened env S falsy (.map c key value req) (.dict d) (.dict out)
  | tuple {c : Common} {fs : List Field} {l : List Val} {v : Val} {out : List (Val × Val)} :
      S (.tuple c fs) → (v = .list l ∨ v = .tuple l) → fs.length ≤ l.length →
      Pieces env S falsy ((fs.zip l).map fun p => (.none, p.1, p.2)) out →
      Screened env S falsy (.tuple c fs) v (.tuple (out.map (·.2)))
  | structure {c : Common} {defn : List (Str × Field)} {s : Bool} {ko : List Str} {d out : List (Val × Val)} :
      S (.structure c defn s ko) → Pieces env S falsy (askedOf d defn) out →
      Screened env S falsy (.structure c defn s ko) (.dict d) (.dict out)
  | variant {c : Common} {disc : Field} {vs : List (Val × List (Str × Field))} {s : Bool} {ko : List Str}
      {d out : List (Val × Val)} {id : Val} {defn : List (Str × Field)} :
      S (.poly c disc vs s ko) → given d (disc.name.getD []) = some id → id.truthy = true → hashable id = true →
      variantIn vs id = some defn → Pieces env S falsy (askedOf d defn) out →
      Screened env S falsy (.poly c disc vs s ko) (.dict d) (.dict out)
  | nothing {c : Common} {disc : Field} {vs : List (Val × List (Str × Field))} {s : Bool} {ko : List Str}
      {d : List (Val × Val)} {id : Val} :
      falsy = true → S (.poly c disc vs s ko) → given d (disc.name.getD []) = some id → id.truthy = false →
      (∀ e ∈ vs, dictGet d e.1 = none ∨ dictGet d e.1 = some .none) →
      Screened env S falsy (.poly c disc vs s ko) (.dict d) (.dict [])
/-- What is taken from the pieces of a container, each with its key (None in lists), its field and its value: those
whose field is wanted, in order. -/
inductive Pieces (env : Env) (S : Field → Prop) (falsy : Bool) : List (Val × Field × Val) → List (Val × Val) → Prop
  | nil : Pieces env S falsy [] []
  | keep {k : Val} {f g : Field} {x w : Val} {r : List (Val × Field × Val)} {out : List (Val × Val)} :
      resolve env f = some g → Screened env S falsy g x w → Pieces env S falsy r out → Pieces env S falsy ((k, f, x) :: r) ((k, w) :: out)
  | drop {k : Val} {f g : Field} {x : Val} {r : List (Val × Field × Val)} {out : List (Val × Val)} :
      resolve env f = some g → (∀ s, g ≠ .undef s) → ¬ S g → Pieces env S falsy r out → Pieces env S falsy ((k, f, x) :: r) out
end

/-- Taking only the fields in `S` keeps the shape: all values of a tuple or none, and the discriminator of each
variant. -/
def KeepsShape (env : Env) (S : Field → Prop) : Field → Prop
  | .tuple c fs => S (.tuple c fs) → ∀ f ∈ fs, ∀ g, resolve env f = some g → S g
  | .poly c disc vs s ko => S (.poly c disc vs s ko) → ∀ v ∈ vs, ∀ f, v.2.lookup (disc.name.getD []) = some f → S f
  | _ => True

/-- The parameters that `screen` and `filter` understand alike: neither None nor equal to False. -/
def Definite (params : Params) : Prop := ∀ p ∈ params, p.2 ≠ .none ∧ pyEq (.bool false) p.2 = false

end Scheme
