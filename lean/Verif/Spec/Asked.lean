import Verif.Spec.Interpolate

/-! What interpolation asks the template engine for, and values with more entries. -/

namespace Scheme

/-- A question to the template engine: the value of an expression, a text with its variables filled in, or a surrogate. -/
inductive Ask
  | evaluate (e : Str)
  | render (s : Str)
  | surrogate (d : List (Val × Val))

/-- Fields whose texts are templates rather than single references. -/
def TemplateLeaf (k : Leaf) : Prop := (∃ p s a b, k = .text p s a b) ∨ (∃ a b c d, k = .email a b c d) ∨ ∃ a, k = .token a

/-- The value `w` is a part of `v` which the field `g` is responsible for when `f` is for `v`. -/
inductive InCharge (env : Env) : Field → Val → Field → Val → Prop
  | item {c item a b q l g w} : w ∈ l → resolve env item = some g → InCharge env (.sequence c item a b q) (.list l) g w
  | item' {c item a b q l g w} : w ∈ l → resolve env item = some g → InCharge env (.sequence c item a b q) (.tuple l) g w
  | value {c key value req d g k w} : (k, w) ∈ d → resolve env value = some g → InCharge env (.map c key value req) (.dict d) g w
  | slot {c fs l} {i : Nat} {f g w} : fs[i]? = some f → l[i]? = some w → resolve env f = some g → InCharge env (.tuple c fs) (.list l) g w
  | slot' {c fs l} {i : Nat} {f g w} : fs[i]? = some f → l[i]? = some w → resolve env f = some g → InCharge env (.tuple c fs) (.tuple l) g w
  | member {c defn st ko d name f g w} : (name, f) ∈ defn → dictGet d (.str name) = some w → resolve env f = some g →
      InCharge env (.structure c defn st ko) (.dict d) g w
  | variant {c disc variants st ko d id i defn name f g w} : dictGet d (.str (disc.name.getD [])) = some id → (i, defn) ∈ variants →
      pyEq id i = true → (name, f) ∈ defn → dictGet d (.str name) = some w → resolve env f = some g →
      InCharge env (.poly c disc variants st ko) (.dict d) g w

/-- Interpolating the value with the field may ask the template engine this. -/
inductive Asks (env : Env) (t : Templates) : Field → Val → Ask → Prop
  | template {c k s} : TemplateLeaf k → s ≠ [] → Asks env t (.leaf c k) (.str s) (.render s)
  | reference {f s e} : (∀ c k, f = .leaf c k → ¬ TemplateLeaf k) → VarRef env.u s e → Asks env t f (.str s) (.evaluate e)
  | surrogate {c vs d} : Asks env t (.leaf c (.surrogate vs)) (.dict d) (.surrogate d)
  | surrogateAt {c vs s e d} : VarRef env.u s e → t.evaluate e = .ok (.dict d) → Asks env t (.leaf c (.surrogate vs)) (.str s) (.surrogate d)
  | inside {f v g w a} : InCharge env f v g w → Asks env t g w a → Asks env t f v a
  | through {f s e v g w a} : VarRef env.u s e → t.evaluate e = .ok v → InCharge env f v g w → Asks env t g w a → Asks env t f (.str s) a

/-- Both give the same answer. -/
def SameAnswer (t t' : Templates) : Ask → Prop
  | .evaluate e => t'.evaluate e = t.evaluate e
  | .render s => t'.render s = t.render s
  | .surrogate d => t'.surrogate d = t.surrogate d

/-- The second gives the same answer, or one where a parameter was undefined before. -/
def MoreAnswers (t t' : Templates) (a : Ask) : Prop :=
  SameAnswer t t' a ∨ ∃ e, a = .evaluate e ∧ t.evaluate e = .error .undefinedParameter

mutual
/-- The second value is the first with entries added to dicts in it. -/
inductive Fuller : Val → Val → Prop
  | same {v} : Fuller v v
  | list {l l'} : FullerL l l' → Fuller (.list l) (.list l')
  | tuple {l l'} : FullerL l l' → Fuller (.tuple l) (.tuple l')
  | dict {d d'} : FullerD d d' → Fuller (.dict d) (.dict d')
inductive FullerL : List Val → List Val → Prop
  | nil : FullerL [] []
  | cons {v w l l'} : Fuller v w → FullerL l l' → FullerL (v :: l) (w :: l')
inductive FullerD : List (Val × Val) → List (Val × Val) → Prop
  | nil : FullerD [] []
  | keep {k v w d d'} : Fuller v w → FullerD d d' → FullerD ((k, v) :: d) ((k, w) :: d')
  | add {e d d'} : FullerD d d' → FullerD d (e :: d')
end

end Scheme
