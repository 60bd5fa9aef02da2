import Verif.Spec.Describe
import Verif.Model.Visit

/-! What visiting a description means. -/

namespace Scheme

/-- The fields a field is made of, in order. -/
def kids : Field → List Field
  | .leaf .. => []
  | .sequence _ item _ _ _ => [item]
  | .map _ key value _ => value :: key.toList
  | .tuple _ values => values
  | .union _ fields => fields
  | .structure _ defn _ _ => defn.map (·.2)
  | .poly _ _ variants _ _ => variants.flatMap fun v => v.2.map (·.2)
  | .undef _ => []

/-- The callback, called on the values `l` one after the other from state `s`, returns the values `ws` and ends in `s'`. -/
inductive Runs {σ : Type} (cb : Visitor σ) : σ → List Val → List Val → σ → Prop
  | nil {s} : Runs cb s [] [] s
  | cons {s v w s' l ws s''} : cb s v = .ok (w, s') → Runs cb s' l ws s'' → Runs cb s (v :: l) (w :: ws) s''

/-- Calling the callback on the values one after the other: it returns the values `ws` and ends in `s'`, or raises `e` on
one of them after returning on those before it. -/
inductive Ends {σ : Type} (cb : Visitor σ) : σ → List Val → Except Exn (List Val × σ) → Prop
  | done {s l ws s'} : Runs cb s l ws s' → Ends cb s l (.ok (ws, s'))
  | raised {s a ws s' v b e} : Runs cb s a ws s' → cb s' v = .error e → Ends cb s (a ++ v :: b) (.error e)

/-- The members of each variant, filled with values in order. -/
def fillVariants : List (Val × List (Str × Field)) → List Val → List (Val × Val)
  | [], _ => []
  | (id, defn) :: r, ws =>
    (id, .dict ((defn.map fun e => Val.str e.1).zip (ws.take defn.length))) :: fillVariants r (ws.drop defn.length)

/-- The parts of a description of the field, with the values `ws` in place of the fields it is made of. -/
def fill : Field → List Val → List (Str × Val)
  | .sequence .., [w] => [(c!"item", w)]
  | .map .., [w] => [(c!"value", w)]
  | .map .., [w, k] => [(c!"value", w), (c!"key", k)]
  | .tuple .., ws => [(c!"values", .tuple ws)]
  | .union .., ws => [(c!"fields", .tuple ws)]
  | .structure _ defn _ _, ws => [(c!"structure", .dict ((defn.map fun e => Val.str e.1).zip ws))]
  | .poly _ _ variants _ _, ws => [(c!"structure", .dict (fillVariants variants ws))]
  | _, _ => []

/-- What a field needs for its description to be visited: no aspect is called like a parameter of the class (the
constructor takes those) or `fieldtype`; the identities of a polymorphic structure differ and are what they serialize to. -/
structure Visitable (env : Env) (f : Field) : Prop where
  aspects : ∀ c, f.common? = some c → ∀ e ∈ c.aspects, e.1 ∉ ownKeys f ∧ e.1 ≠ c!"fieldtype"
  variants : ∀ c disc variants s ko, f = .poly c disc variants s ko →
    (variants.Pairwise fun a b => pyEq b.1 a.1 = false) ∧ ∀ v ∈ variants, serializeOf env disc v.1 = .ok v.1

/-- Fields that are values of parameters have descriptions that describe themselves. -/
def SelfDescribing (env : Env) : Prop := ∀ h v, env.describe h = .ok v → descParam env v = .ok v

/-- The descriptions of a field and of all fields nested in it, each before those nested in it. -/
def listing (env : Env) (verbose : Bool) : Nat → Field → List Val
  | 0, _ => []
  | n + 1, f =>
    (match describe env verbose (n + 1) f with | .ok d => [d] | .error _ => []) ++
      (kids f).flatMap fun k => match resolve env k with | some g => listing env verbose n g | none => []

end Scheme
