import Verif.Spec.Members

/-! Which child calls processing can make, and measures of schemas and values. -/

namespace Scheme

/-- The value a container works on: the given one or what its user preprocessor makes of it. -/
def containerInput (env : Env) (c : Common) (v : Val) : Option Val :=
  match c.pre with
  | none => some v
  | some h => match env.pre h v with
    | .ok w => some w
    | .error _ => none

/-- Processing `f` on `v` may process the sub-field `g` on `w`.  (`o = none` in `member` and `variant`: a
name listed twice in `key_order` is treated as absent the second time, so its default is processed.) -/
inductive Calls (env : Env) (ph : Phase) (part : Bool) : Field → Val → Field → Val → Prop
  | item {c item mn mx u v l w g} : containerInput env c v = some (.list l) → w ∈ l →
      resolve env item = some g → Calls env ph part (.sequence c item mn mx u) v g w
  | key {c kf val r v d k x} : containerInput env c v = some (.dict d) → (k, x) ∈ d →
      Calls env ph part (.map c (some kf) val r) v kf k
  | value {c kf val r v d k x g} : containerInput env c v = some (.dict d) → (k, x) ∈ d →
      resolve env val = some g → Calls env ph part (.map c kf val r) v g x
  | tuple {c fs v i l f w g} : containerInput env c v = some i → (i = .list l ∨ i = .tuple l) →
      (f, w) ∈ fs.zip l → resolve env f = some g → Calls env ph part (.tuple c fs) v g w
  | union {c fs f v g} : f ∈ fs → resolve env f = some g → Calls env ph part (.union c fs) v g v
  | member {c defn s ko v d name f g cg o w} : containerInput env c v = some (.dict d) →
      (name, f) ∈ defn → resolve env f = some g → g.common? = some cg →
      (o = given d name ∨ o = none) → memberInput cg o ph part = some w → Calls env ph part (.structure c defn s ko) v g w
  | disc {c dsc vs s ko v d w} : containerInput env c v = some (.dict d) →
      given d (dsc.name.getD []) = some w → Calls env ph part (.poly c dsc vs s ko) v dsc w
  | variant {c dsc vs s ko v d i defn name f g cg o w} : containerInput env c v = some (.dict d) →
      (i, defn) ∈ vs → (name, f) ∈ defn → resolve env f = some g → g.common? = some cg →
      (o = given d name ∨ o = none) → memberInput cg o ph part = some w → Calls env ph part (.poly c dsc vs s ko) v g w

/-- The schema is nested at most `n` deep. -/
def Nesting (env : Env) : Nat → Field → Prop
  | 0, _ => False
  | n + 1, f => ∀ g, Child env f g → Nesting env n g

/-- At most `n` unions directly inside each other. -/
def UnionNesting (env : Env) : Nat → Field → Prop
  | 0, f => ∀ c fs, f ≠ .union c fs
  | n + 1, f => ∀ c fs, f = .union c fs → ∀ g, Child env f g → UnionNesting env n g

mutual
/-- The nesting depth of a value. -/
def Val.depth : Val → Nat
  | .list l => depthL l + 1
  | .tuple l => depthL l + 1
  | .dict d => depthD d + 1
  | _ => 0
def depthL : List Val → Nat
  | [] => 0
  | v :: r => max v.depth (depthL r)
def depthD : List (Val × Val) → Nat
  | [] => 0
  | (k, v) :: r => max (max k.depth v.depth) (depthD r)
end

/-- No default and no user preprocessor. -/
def Plain (f : Field) : Prop := ∀ c, f.common? = some c → c.default = .none ∧ c.pre = none

end Scheme
