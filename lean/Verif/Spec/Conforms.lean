import Verif.Spec.Text
import Verif.Spec.DateText
import Verif.Spec.DecText
import Verif.Spec.Leaf
import Verif.Spec.Members

/-! When a native value conforms to a schema. -/

namespace Scheme

/-- Time of day order. -/
def TimeBefore (a b : PTime) : Prop :=
  a.hour < b.hour ∨ a.hour = b.hour ∧ (a.minute < b.minute ∨ a.minute = b.minute ∧
    (a.second < b.second ∨ a.second = b.second ∧ a.micro < b.micro))

/-- Order of extended reals; NaN is incomparable. -/
inductive FloatBefore : PyFloat → PyFloat → Prop
  | fin {a b : Rat} : a < b → FloatBefore (.fin a) (.fin b)
  | low {a : Rat} : FloatBefore (.inf true) (.fin a)
  | high {a : Rat} : FloatBefore (.fin a) (.inf false)
  | both : FloatBefore (.inf true) (.inf false)

/-- The native values of each leaf type, with its bounds, lengths, pattern or members.  Quirks of the code:
a Date without bounds takes datetimes, `$` lets one trailing newline pass (Token, UUID, Email). -/
def LeafValue (env : Env) (k : Leaf) (v : Val) : Prop :=
  match k with
  | .any => True
  | .binary mn mx => ∃ b, v = .bytes b ∧ Within (· ≤ ·) mn mx b.length
  | .boolean => ∃ b, v = .bool b
  | .date mn mx => (∃ d, v = .date d ∧ Within (fun a b => ¬ DateBefore b a) mn mx d) ∨
      ∃ d, v = .datetime d ∧ mn = none ∧ mx = none
  | .datetime mn mx utc => ∃ d, v = .datetime d ∧ d.tz = some (fieldZone utc) ∧
      Within (fun a b => ¬ (DateBefore b.date a.date ∨ b.date = a.date ∧ TimeBefore b.time a.time)) mn mx d
  | .decimal mn mx => ∃ d, v = .decimal d ∧ Within DecLe mn mx d
  | .definition valid => ∃ h, v = .field h ∧ (valid ≠ [] → env.fieldType h ∈ valid)
  | .email mn mx multiple extended => ∃ s, v = .str s ∧ Within (· ≤ ·) mn mx s.length ∧
      ∃ t, (s = t ∨ s = t ++ ['\n']) ∧ EmailText multiple extended t
  | .enumeration vals _ => ∃ m ∈ vals, pyEq v m = true
  | .error => ∃ cls i errs st x, v = .exc cls i errs st x
  | .float mn mx => ∃ x, v = .float x ∧ Within (fun a b => ¬ FloatBefore b a) mn mx x
  | .integer mn mx => ∃ i, v = .int i ∧ Within (· ≤ ·) mn mx i
  | .object => True
  | .surrogate valid => ∃ h, v = .surr h ∧ valid = []
  | .text pat mn mx stripped => ∃ s, v = .str s ∧ Within (· ≤ ·) mn mx s.length ∧
      (∀ p, pat = some p → env.pat p s = true) ∧
      (stripped = true → (∀ c, s.head? = some c → isSpace env.u c = false) ∧
        ∀ c, s.getLast? = some c → isSpace env.u c = false)
  | .time mn mx => ∃ t, v = .time t ∧ Within (fun a b => ¬ TimeBefore b a) mn mx t
  | .token seg => ∃ s t n, v = .str s ∧ (s = t ∨ s = t ++ ['\n']) ∧ IsToken env.u t n ∧ ∀ m, seg = some m → m = n
  | .uuid => ∃ s t, v = .str s ∧ (s = t ∨ s = t ++ ['\n']) ∧ IsUuid t

/-- Fields whose result may differ from the value compared with the constant. -/
def rewrites : Leaf → Prop
  | .text _ _ _ stripped => stripped = true
  | .datetime .. => True
  | _ => False

/-- A dict has no two equal keys. -/
def DistinctKeys (d : List (Val × Val)) : Prop := d.Pairwise fun a b => pyEq b.1 a.1 = false

/-- The declared member is always in an accepted dict: it is required, or (inbound) has a default.  A null
to be ignored is dropped even so. -/
def MustAppear (c : Common) (ph : Phase) : Prop :=
  c.ignoreNull = false ∧ (c.required = true ∨ ph = .inbound ∧ c.default ≠ .none)

/-- The members a structure looks at: those listed in `key_order`, if given. -/
def visited (defn : List (Str × Field)) (ko : List Str) : List Str :=
  if ko = [] then defn.map (·.1) else ko

/-- `Conforms env ph f v`: `v` is a native value of the schema `f`. -/
inductive Conforms (env : Env) (ph : Phase) : Field → Val → Prop
  | null {f c} : f.common? = some c → c.nonnull = false → Conforms env ph f .none
  | leaf {c k v} : LeafValue env k v → (¬ rewrites k → ConstOk c v) →
      (v = .none → c.nonnull = false ∨ c.pre ≠ none ∨ k = .object) → Conforms env ph (.leaf c k) v
  | sequence {c item mn mx unique l} : Within (· ≤ ·) mn mx l.length →
      (unique = true → l.Pairwise fun a b => pyEq a b = false) →
      (l ≠ [] → ∃ g, resolve env item = some g) →
      (∀ g, resolve env item = some g → ∀ x ∈ l, Conforms env ph g x) →
      Conforms env ph (.sequence c item mn mx unique) (.list l)
  | tuple {c fs l} : l.length = fs.length → (∀ p ∈ fs.zip l, ∃ g, resolve env p.1 = some g) →
      (∀ p ∈ fs.zip l, ∀ g, resolve env p.1 = some g → Conforms env ph g p.2) →
      Conforms env ph (.tuple c fs) (.tuple l)
  | map {c key value req d} : DistinctKeys d →
      (key = none → ∀ e ∈ d, ∃ s, e.1 = .str s) → (∀ kf, key = some kf → ∀ e ∈ d, Conforms env ph kf e.1) →
      (d ≠ [] → ∃ g, resolve env value = some g) →
      (∀ g, resolve env value = some g → ∀ e ∈ d, Conforms env ph g e.2) →
      (∀ k ∈ req, ∃ e ∈ d, pyEq k e.1 = true) →
      Conforms env ph (.map c key value req) (.dict d)
  | union {c fs f g v} : f ∈ fs → resolve env f = some g → Conforms env ph g v → Conforms env ph (.union c fs) v
  | structure {c defn strict ko d} : DistinctKeys d →
      (∀ e ∈ d, ∃ name g c, e.1 = .str name ∧ name ∈ visited defn ko ∧ Declares env defn name g c) →
      (∀ e ∈ d, ∀ name g c, e.1 = .str name → Declares env defn name g c → Conforms env ph g e.2) →
      (∀ name ∈ visited defn ko, ∀ g c, Declares env defn name g c → MustAppear c ph → ∃ e ∈ d, e.1 = .str name) →
      Conforms env ph (.structure c defn strict ko) (.dict d)
  | poly {c disc vs strict ko d id i defn} : (i, defn) ∈ vs → pyEq id i = true → Conforms env ph disc id →
      DistinctKeys d →
      (∀ e ∈ d, ∃ name g c, e.1 = .str name ∧ name ∈ visited defn ko ∧ Declares env defn name g c) →
      (∀ e ∈ d, ∀ name g c, e.1 = .str name → Declares env defn name g c → Conforms env ph g e.2) →
      (∀ name ∈ visited defn ko, ∀ g c, Declares env defn name g c → MustAppear c ph → ∃ e ∈ d, e.1 = .str name) →
      Conforms env ph (.poly c disc vs strict ko) (.dict d)

end Scheme
