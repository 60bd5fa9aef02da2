import Verif.Spec.ErrTree
import Verif.Spec.Members
import Verif.Spec.Conforms
import Verif.Props.Map
import Verif.Props.Poly

/-! Changing one part of a value: where the part is, which field processes it, and how the outcome of
the whole relates to the outcome of the part. -/

namespace Scheme

/-- The call ends with `x`: its result, or the validation error it raises. -/
inductive EndsAs : Except Exn Val → Val → Prop
  | result {w} : EndsAs (.ok w) w
  | error {e} : EndsAs (.error (.structural e)) (.exc e.cls e.identity e.errors e.struct e.value)

/-- The outcome `x` shows `y` at the step `s`: an item of a result, or an item of the structure of an
error. -/
inductive Reveals : Val → EStep → Val → Prop
  | value {x s y} : ErrChild x s y → Reveals x s y
  | tuple {l i y} : l[i]? = some y → Reveals (.tuple l) (.idx i) y
  | error {cls anc es st v s y} : ErrChild st s y → Reveals (.exc cls anc es st v) s y

/-- The outcome `x` shows `y` at the path `p`. -/
inductive RevealsAt : Val → List EStep → Val → Prop
  | here {x} : RevealsAt x [] x
  | step {x s y p z} : Reveals x s y → RevealsAt y p z → RevealsAt x (s :: p) z

/-- The path `q` leaves the path `p`: neither leads to a part of the other. -/
inductive Parting : List EStep → List EStep → Prop
  | now {s t p q} : s ≠ t → Parting (s :: p) (t :: q)
  | later {s p q} : Parting p q → Parting (s :: p) (s :: q)

open Classical in
/-- The value `x` with the part at the path `p` replaced by `y`. -/
noncomputable def replaced : Val → List EStep → Val → Val
  | _, [], y => y
  | .list l, .idx i :: p, y => .list (l.mapIdx fun j x => if j = i then replaced x p y else x)
  | .tuple l, .idx i :: p, y => .tuple (l.mapIdx fun j x => if j = i then replaced x p y else x)
  | .dict d, .key k :: p, y => .dict (d.map fun e => if e.1 = k then (e.1, replaced e.2 p y) else e)
  | x, _ :: _, _ => x
termination_by _ p => p

/-- `Gap env ph ser D n f anc C p m g at`: in every value `C b`, for `b` in `D`, given to the field `f` at `anc`, the part `b`
is found at the path `p` of the outcome and is given to the field `g` at `at`.  The way to the part leads
through sequences whose items need not be distinct, tuples, maps, structures and the variant that a
discriminator beside the part selects, all without user supplied preprocessors. -/
inductive Gap (env : Env) (ph : Phase) (ser : Bool) (D : Val → Prop) :
    Nat → Field → List Str → (Val → Val) → List EStep → Nat → Field → List Str → Prop
  | here {n f anc} : Gap env ph ser D n f anc id [] n f anc
  | item {n c item mn mx f anc C p m g a} (l r : List Val) : c.pre = none → resolve env item = some f →
      Gap env ph ser D n f (anc ++ [idxStep l.length]) C p m g a →
      Gap env ph ser D (n + 1) (.sequence c item mn mx false) anc (fun b => .list (l ++ C b :: r))
        (.idx l.length :: p) m g a
  | slot {n c fl x fr f anc C p m g a} (l r : List Val) : c.pre = none → fl.length = l.length →
      resolve env x = some f → Gap env ph ser D n f (anc ++ [idxStep l.length]) C p m g a →
      Gap env ph ser D (n + 1) (.tuple c (fl ++ x :: fr)) anc (fun b => .list (l ++ C b :: r))
        (.idx l.length :: p) m g a
  | slotT {n c fl x fr f anc C p m g a} (l r : List Val) : c.pre = none → fl.length = l.length →
      resolve env x = some f → Gap env ph ser D n f (anc ++ [idxStep l.length]) C p m g a →
      Gap env ph ser D (n + 1) (.tuple c (fl ++ x :: fr)) anc (fun b => .tuple (l ++ C b :: r))
        (.idx l.length :: p) m g a
  | entry {n c key value req f anc C p m g a k k' st} (l r : List (Val × Val)) : c.pre = none →
      resolve env value = some f → KeyOk env n ph ser anc key k k' → pyEq k' k' = true →
      keyStep env k' = .ok st →
      (∀ e ∈ l ++ r, ∀ k2, KeyOk env n ph ser anc key e.1 k2 → pyEq k2 k' = false ∧ pyEq k' k2 = false) →
      Gap env ph ser D n f (anc ++ [st]) C p m g a →
      Gap env ph ser D (n + 1) (.map c key value req) anc (fun b => .dict (l ++ (k, C b) :: r))
        (.key k' :: p) m g a
  | member {n c defn strict ko name f cf anc C p m g a} (l r : List (Val × Val)) : c.pre = none →
      (visited defn ko).Nodup → name ∈ visited defn ko → Declares env defn name f cf →
      (∀ e ∈ l ++ r, e.1 ≠ .str name) → (∀ b, D b → cf.ignoreNull = true → C b ≠ .none) →
      Gap env ph ser D n f (anc ++ ['.' :: name]) C p m g a →
      Gap env ph ser D (n + 1) (.structure c defn strict ko) anc (fun b => .dict (l ++ (.str name, C b) :: r))
        (.key (.str name) :: p) m g a
  | variant {n c disc dname variants strict raw id defn anc C p m g a} (d : Val → List (Val × Val)) :
      c.pre = none → disc.name = some dname → (∀ b, D b → C b = .dict (d b)) → (∀ b, D b → given (d b) dname = some raw) →
      raw ≠ .none → process env n disc raw ph ser (anc ++ ['.' :: dname]) = .ok id → hashable id = true →
      variantFor variants id = some defn → defn ≠ [] →
      Gap env ph ser D (n + 1) (.structure c defn strict []) anc C p m g a →
      Gap env ph ser D (n + 1) (.poly c disc variants strict []) anc C p m g a

end Scheme
