import Verif.Lemmas.Same
import Verif.Spec.Describe
import Verif.Spec.Doc
import Verif.Model.DescribeWith

/-! What asking for further parameters adds to a description. -/

namespace Scheme

/-- What the class of a field states about it under a name of its own: the bounds of dates, times and decimals that are
set, the parts of fields with parts and, except for a Union, their default. -/
inductive StatedByClass : Field → Str → Prop
  | dateMax {c mn mx} : StatedByClass (.leaf c (.date mn (some mx))) c!"maximum"
  | dateMin {c mn mx} : StatedByClass (.leaf c (.date (some mn) mx)) c!"minimum"
  | datetimeMax {c mn mx u} : StatedByClass (.leaf c (.datetime mn (some mx) u)) c!"maximum"
  | datetimeMin {c mn mx u} : StatedByClass (.leaf c (.datetime (some mn) mx u)) c!"minimum"
  | decimalMax {c mn mx} : StatedByClass (.leaf c (.decimal mn (some mx))) c!"maximum"
  | decimalMin {c mn mx} : StatedByClass (.leaf c (.decimal (some mn) mx)) c!"minimum"
  | timeMax {c mn mx} : StatedByClass (.leaf c (.time mn (some mx))) c!"maximum"
  | timeMin {c mn mx} : StatedByClass (.leaf c (.time (some mn) mx)) c!"minimum"
  | item {c i mn mx u} : StatedByClass (.sequence c i mn mx u) c!"item"
  | sequence {c i mn mx u} : StatedByClass (.sequence c i mn mx u) c!"default"
  | value {c k v r} : StatedByClass (.map c k v r) c!"value"
  | key {c k v r} : StatedByClass (.map c (some k) v r) c!"key"
  | map {c k v r} : StatedByClass (.map c k v r) c!"default"
  | values {c vs} : StatedByClass (.tuple c vs) c!"values"
  | tuple {c vs} : StatedByClass (.tuple c vs) c!"default"
  | fields {c fs} : StatedByClass (.union c fs) c!"fields"
  | members {c d s ko} : StatedByClass (.structure c d s ko) c!"structure"
  | polymorphic {c d s ko} : StatedByClass (.structure c d s ko) c!"polymorphic_on"
  | structure {c d s ko} : StatedByClass (.structure c d s ko) c!"default"
  | variants {c d vs s ko} : StatedByClass (.poly c d vs s ko) c!"structure"
  | discriminator {c d vs s ko} : StatedByClass (.poly c d vs s ko) c!"polymorphic_on"
  | poly {c d vs s ko} : StatedByClass (.poly c d vs s ko) c!"default"

/-- The names under which the parts of a field are described. -/
inductive PartName : Field → Str → Prop
  | item {c i mn mx u} : PartName (.sequence c i mn mx u) c!"item"
  | value {c k v r} : PartName (.map c k v r) c!"value"
  | key {c k v r} : PartName (.map c (some k) v r) c!"key"
  | values {c vs} : PartName (.tuple c vs) c!"values"
  | fields {c fs} : PartName (.union c fs) c!"fields"
  | members {c d s ko} : PartName (.structure c d s ko) c!"structure"
  | variants {c d vs s ko} : PartName (.poly c d vs s ko) c!"structure"
  | discriminator {c d vs s ko} : PartName (.poly c d vs s ko) c!"polymorphic_on"

/-- `name` is asked for, and the field has something else there than the default given with it (or all is wanted). -/
def Told1 (w : Further) (verbose : Bool) (f : Field) (name : Str) (v : Val) : Prop :=
  ∃ dflt, (name, dflt) ∈ w.params ∧ v = attrOf w.outer f name ∧ v ≠ .none ∧ (verbose = true ∨ w.same v dflt = false)

/-- What asking for further parameters adds to the description of the field itself: attributes that are simple data as
they are, fields as they are described. -/
inductive Added (env : Env) (w : Further) (verbose : Bool) (f : Field) (name : Str) : Val → Prop
  | plain {v} : Told1 w verbose f name v → ¬ StatedByClass f name → PlainVal v → Added env w verbose f name v
  | field {h x} : Told1 w verbose f name (.field h) → ¬ StatedByClass f name → env.describe h = .ok x →
      Added env w verbose f name x

/-- Nothing is added: not asked for, stated by the class, not set, the default, or not to be described. -/
def NotAdded (env : Env) (w : Further) (verbose : Bool) (f : Field) (name : Str) : Prop :=
  StatedByClass f name ∨ ∀ v, Told1 w verbose f name v → OpaqueVal v ∨ ∃ h, v = .field h ∧ env.describe h = .error .cannotDescribe

/-- The description `d` of `f` describes the parts of `f` as `desc` says. -/
def TellsParts (env : Env) (desc : Field → Val → Prop) (d : List (Val × Val)) : Field → Prop
  | .sequence _ item _ _ _ => ∃ x g, dictGet d (.str c!"item") = some x ∧ resolve env item = some g ∧ desc g x
  | .map _ key value _ => (∃ x g, dictGet d (.str c!"value") = some x ∧ resolve env value = some g ∧ desc g x) ∧
      ∀ k, key = some k → ∃ x, dictGet d (.str c!"key") = some x ∧ desc k x
  | .tuple _ values => ∃ l, dictGet d (.str c!"values") = some (.list l) ∧
      All2 (fun f x => ∃ g, resolve env f = some g ∧ desc g x) values l
  | .union _ fields => ∃ l, dictGet d (.str c!"fields") = some (.list l) ∧
      All2 (fun f x => ∃ g, resolve env f = some g ∧ desc g x) fields l
  | .structure _ defn _ _ => ∃ m, dictGet d (.str c!"structure") = some (.dict m) ∧
      All2 (fun e x => x.1 = .str e.1 ∧ ∃ g, resolve env e.2 = some g ∧ desc g x.2) defn m
  | .poly _ disc variants _ _ => (∃ x, dictGet d (.str c!"polymorphic_on") = some x ∧ desc disc x) ∧
      ∃ m, dictGet d (.str c!"structure") = some (.dict m) ∧
        All2 (fun v x => x.1 = v.1 ∧ ∃ ms, x.2 = .dict ms ∧
          All2 (fun e x => x.1 = .str e.1 ∧ ∃ g, resolve env e.2 = some g ∧ desc g x.2) v.2 ms) variants m
  | _ => True

/-- The identities of a polymorphic structure are different and stay what they are when serialized. -/
def PlainIdentities (env : Env) : Field → Prop
  | .poly _ disc variants _ _ => (∀ v ∈ variants, serializeOf env disc v.1 = .ok v.1) ∧
      variants.Pairwise fun a b => pyEq b.1 a.1 = false
  | _ => True

end Scheme
