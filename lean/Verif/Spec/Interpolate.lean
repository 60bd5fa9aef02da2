import Verif.Model.Interpolate
import Verif.Spec.Instantiate
import Verif.Spec.Text

/-! Variable references in texts, and values that interpolation leaves alone. -/

namespace Scheme

/-- The text is a single reference `${...}` between optional white space; `e` is the inner text without surrounding
white space.  The inner text is not empty (but may be blank) and contains no closing brace. -/
def VarRef (u : Chars) (s e : Str) : Prop :=
  ∃ a inner b, s = a ++ '$' :: '{' :: (inner ++ '}' :: b) ∧ (∀ c ∈ a, isSpace u c = true) ∧
    (∀ c ∈ b, isSpace u c = true) ∧ inner ≠ [] ∧ '}' ∉ inner ∧ Stripped (isSpace u) inner e

/-- A text that is not a variable reference. -/
def PlainText (u : Chars) (s : Str) : Prop := ∀ e, ¬ VarRef u s e

/-- A text that the template engine renders as itself. -/
def RendersAsIs (t : Templates) (s : Str) : Prop := s = [] ∨ t.render s = .ok (.str s)

/-- Native values of a leaf type, or texts without variables where the type does not convert them. -/
def LeafStays (env : Env) (t : Templates) (k : Leaf) (v : Val) : Prop :=
  match k with
  | .integer .. => ∃ i, v = .int i
  | .float .. => ∃ x, v = .float x
  | .decimal .. => ∃ d, v = .decimal d
  | .text .. => ∃ s, v = .str s ∧ RendersAsIs t s
  | .email .. => ∃ s, v = .str s ∧ RendersAsIs t s
  | .token _ => ∃ s, v = .str s ∧ RendersAsIs t s
  | .uuid => ∃ s, v = .str s ∧ PlainText env.u s
  | .enumeration vals _ => ∃ m ∈ vals, pyEq v m = true
  | .surrogate _ => ∃ h, v = .surr h
  | .binary .. => (∃ b, v = .bytes b) ∨ ∃ s, v = .str s ∧ PlainText env.u s
  | .boolean => (∃ b, v = .bool b) ∨ ∃ s, v = .str s ∧ PlainText env.u s
  | .date .. => (∃ d, v = .date d) ∨ (∃ d, v = .datetime d) ∨ ∃ s, v = .str s ∧ PlainText env.u s
  | .datetime .. => (∃ d, v = .datetime d) ∨ ∃ s, v = .str s ∧ PlainText env.u s
  | .time .. => (∃ d, v = .time d) ∨ ∃ s, v = .str s ∧ PlainText env.u s
  | .definition _ => (∃ h, v = .field h) ∨ ∃ s, v = .str s ∧ PlainText env.u s
  | .any => ∃ s, v = .str s ∧ PlainText env.u s
  | .object => ∃ s, v = .str s ∧ PlainText env.u s
  | .error => ∃ s, v = .str s ∧ PlainText env.u s

/-- `v` is a native value of the (union-free) schema without any variable in it. -/
inductive VarFree (env : Env) (t : Templates) : Field → Val → Prop
  | null {f} : (∀ s, f ≠ .undef s) → VarFree env t f .none
  | leaf {c k v} : LeafStays env t k v → VarFree env t (.leaf c k) v
  | sequence {c item mn mx u l} : (l ≠ [] → ∃ g, resolve env item = some g) →
      (∀ g, resolve env item = some g → ∀ x ∈ l, VarFree env t g x) → VarFree env t (.sequence c item mn mx u) (.list l)
  | map {c key value req d} : (d ≠ [] → ∃ g, resolve env value = some g) →
      (∀ g, resolve env value = some g → ∀ e ∈ d, VarFree env t g e.2) → VarFree env t (.map c key value req) (.dict d)
  | tuple {c fs l} : l.length = fs.length → (∀ p ∈ fs.zip l, ∃ g, resolve env p.1 = some g) →
      (∀ p ∈ fs.zip l, ∀ g, resolve env p.1 = some g → VarFree env t g p.2) → VarFree env t (.tuple c fs) (.tuple l)
  | structure {c defn s ko d} : (d.map (·.1)).Nodup →
      (∀ e ∈ d, ∃ name f g, e.1 = .str name ∧ defn.lookup name = some f ∧ resolve env f = some g) →
      (∀ e ∈ d, ∀ name f g, e.1 = .str name → defn.lookup name = some f → resolve env f = some g → VarFree env t g e.2) →
      VarFree env t (.structure c defn s ko) (.dict d)
  | poly {c disc vs s ko d id defn} : given d (disc.name.getD []) = some id → id.truthy = true → hashable id = true →
      variantIn vs id = some defn → (d.map (·.1)).Nodup →
      (∀ e ∈ d, ∃ name f g, e.1 = .str name ∧ defn.lookup name = some f ∧ resolve env f = some g) →
      (∀ e ∈ d, ∀ name f g, e.1 = .str name → defn.lookup name = some f → resolve env f = some g → VarFree env t g e.2) →
      VarFree env t (.poly c disc vs s ko) (.dict d)

/-- Member names are distinct. -/
def DistinctNames : Field → Prop
  | .structure _ defn _ _ => (defn.map (·.1)).Nodup
  | .poly _ _ vs _ _ => ∀ v ∈ vs, (v.2.map (·.1)).Nodup
  | _ => True

end Scheme
