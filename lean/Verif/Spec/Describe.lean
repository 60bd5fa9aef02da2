import Verif.Model.Describe
import Verif.Spec.Schema
import Verif.Spec.DateText

/-! Which fields a description can carry. -/

namespace Scheme

/-- Made of None, booleans, numbers, texts, lists, tuples and dicts, where no dict has the key `fieldtype`. -/
inductive PlainVal : Val → Prop
  | none : PlainVal .none
  | bool (b) : PlainVal (.bool b)
  | int (i) : PlainVal (.int i)
  | float (x) : PlainVal (.float x)
  | str (s) : PlainVal (.str s)
  | list {l} : (∀ v ∈ l, PlainVal v) → PlainVal (.list l)
  | tuple {l} : (∀ v ∈ l, PlainVal v) → PlainVal (.tuple l)
  | dict {d} : (∀ e ∈ d, PlainVal e.2) → (∀ e ∈ d, e.1 ≠ .str c!"fieldtype") → PlainVal (.dict d)

/-- A single value of a type that descriptions leave out. -/
inductive OpaqueVal : Val → Prop
  | bytes (b) : OpaqueVal (.bytes b)
  | date (d) : OpaqueVal (.date d)
  | time (d) : OpaqueVal (.time d)
  | datetime (d) : OpaqueVal (.datetime d)
  | decimal (d) : OpaqueVal (.decimal d)
  | obj (o) : OpaqueVal (.obj o)

/-- Something that is carried as it is or left out. -/
def Carried (v : Val) : Prop := PlainVal v ∨ OpaqueVal v

/-- Names the constructor of a field and `reconstruct` itself use. -/
def ownKeys : Field → List Str
  | .leaf _ (.binary ..) => [c!"min_length", c!"max_length"]
  | .leaf _ (.date ..) => [c!"minimum", c!"maximum"]
  | .leaf _ (.datetime ..) => [c!"minimum", c!"maximum", c!"utc"]
  | .leaf _ (.decimal ..) => [c!"minimum", c!"maximum"]
  | .leaf _ (.definition ..) => [c!"valid_fields"]
  | .leaf _ (.email ..) => [c!"multiple", c!"extended", c!"pattern", c!"strip", c!"min_length", c!"max_length"]
  | .leaf _ (.enumeration ..) => [c!"enumeration", c!"ignored_values"]
  | .leaf _ (.float ..) => [c!"minimum", c!"maximum"]
  | .leaf _ (.integer ..) => [c!"minimum", c!"maximum"]
  | .leaf _ (.surrogate ..) => [c!"valid_surrogates"]
  | .leaf _ (.text ..) => [c!"pattern", c!"min_length", c!"max_length", c!"strip"]
  | .leaf _ (.time ..) => [c!"minimum", c!"maximum"]
  | .leaf _ (.token ..) => [c!"segments"]
  | .leaf .. => []
  | .sequence .. => [c!"item", c!"min_length", c!"max_length", c!"unique"]
  | .map .. => [c!"value", c!"key", c!"required_keys"]
  | .tuple .. => [c!"values"]
  | .union .. => [c!"fields"]
  | .structure .. => [c!"structure", c!"strict", c!"polymorphic_on", c!"generate_default", c!"key_order"]
  | .poly .. => [c!"structure", c!"strict", c!"polymorphic_on", c!"generate_default", c!"key_order"]
  | .undef _ => []

def commonKeys : List Str := [c!"name", c!"description", c!"default", c!"nonnull", c!"ignore_null", c!"required",
  c!"constant", c!"errors", c!"title", c!"notes", c!"nonempty", c!"instantiator", c!"extractor", c!"preprocessor",
  c!"aspects", c!"fieldtype", c!"cls", c!"self", c!""]

/-- Attributes every field has: the constant is carried; no preprocessor and no error messages of its own; further
aspects do not have the name of a parameter. -/
structure CarriedCommon (own : List Str) (c : Common) : Prop where
  constant : PlainVal c.constant
  description : Carried c.description
  title : Carried c.title
  notes : Carried c.notes
  pre : c.pre = none
  errors : c.errors = []
  aspects : ∀ e ∈ c.aspects, e.1 ∉ own ∧ e.1 ∉ commonKeys ∧ Carried e.2

/-- A day whose text has a year of four digits. -/
def CarriedDate (env : Env) (d : PDate) : Prop := CalendarDate d ∧ (env.padYear = true ∨ 1000 ≤ d.year)

/-- A time of day in whole seconds. -/
def CarriedTime (t : PTime) : Prop := ClockTime t ∧ t.micro = 0

/-- What a description carries of the simple fields: no pattern, no ignored values, no segments; bounds of a DateTime
only in UTC; bounds in whole seconds. -/
def CarriedLeaf (env : Env) : Leaf → Prop
  | .date mn mx => (∀ d, mn = some d → CarriedDate env d) ∧ ∀ d, mx = some d → CarriedDate env d
  | .time mn mx => (∀ t, mn = some t → CarriedTime t) ∧ ∀ t, mx = some t → CarriedTime t
  | .datetime mn mx utc => ∀ d, mn = some d ∨ mx = some d →
      utc = true ∧ d.tz = some .utc ∧ CarriedDate env d.date ∧ CarriedTime d.time
  | .definition valid => ∀ t ∈ valid, t ∈ fieldTypes
  | .email _ _ multiple extended => ¬ (multiple = true ∧ extended = true)
  | .enumeration vals ignored => (∀ v ∈ vals, PlainVal v) ∧ ignored = []
  | .text pattern _ _ _ => pattern = none
  | .token segments => segments = none
  | _ => True

/-- Serializing the part `v` of a default with the field `f` leaves it as it is. -/
def Fixed (env : Env) (f : Field) (v : Val) : Prop :=
  ∀ g, resolve env f = some g → ∀ n w, process env n g v .outbound true [] = .ok w → w = v

/-- The default of a structure is a dict, not empty, whose values are what they serialize to. -/
def FixedDict (env : Env) (defn : List (Str × Field)) (d : List (Val × Val)) : Prop :=
  ∀ e ∈ d, ∀ name f g w, e.1 = .str name → defn.lookup name = some f → resolve env f = some g →
    serializeOf env g e.2 = .ok w → w = e.2

/-- The default of the field is carried: plain, and for the structural fields None, or not empty and made of values
that are what they serialize to. -/
def CarriedDefault (env : Env) : Field → Prop
  | .leaf c _ => PlainVal c.default
  | .union c _ => PlainVal c.default
  | .sequence c item _ _ _ => PlainVal c.default ∧
      (c.default = .none ∨ ∃ l, c.default = .list l ∧ l ≠ [] ∧ ∀ v ∈ l, Fixed env item v)
  | .map c _ value _ => PlainVal c.default ∧
      (c.default = .none ∨ ∃ d, c.default = .dict d ∧ d ≠ [] ∧ ∀ e ∈ d, Fixed env value e.2)
  | .tuple c values => PlainVal c.default ∧
      (c.default = .none ∨ ∃ l, c.default = .tuple l ∧ l ≠ [] ∧ l.length ≤ values.length ∧
        ∀ e ∈ values.zip l, Fixed env e.1 e.2)
  | .structure c defn _ _ => PlainVal c.default ∧
      (c.default = .none ∨ ∃ d, c.default = .dict d ∧ d ≠ [] ∧ FixedDict env defn d)
  | .poly c _ variants _ _ => PlainVal c.default ∧
      (c.default = .none ∨ ∃ d, c.default = .dict d ∧ d ≠ [] ∧ ∀ v ∈ variants, FixedDict env v.2 d)
  | .undef _ => True

/-- What structural fields need besides: plain required keys; no key order; no member called `fieldtype`; identities
different from each other and from `fieldtype` and `*`, that are what they serialize to; the discriminator is a simple
field with a name, and required. -/
def CarriedParts (env : Env) : Field → Prop
  | .map _ _ _ req => ∀ v ∈ req, PlainVal v
  | .tuple _ values => values ≠ []
  | .union _ fields => fields ≠ []
  | .structure _ defn _ ko => ko = [] ∧ ∀ e ∈ defn, e.1 ≠ c!"fieldtype"
  | .poly _ disc variants _ ko => ko = [] ∧ (∃ c k ch s, disc = .leaf c k ∧ c.name = some (ch :: s) ∧ c.required = true) ∧
      (variants.Pairwise fun a b => pyEq b.1 a.1 = false) ∧
      ∀ v ∈ variants, v.1 ≠ .str c!"fieldtype" ∧ v.1 ≠ .str c!"*" ∧ serializeOf env disc v.1 = .ok v.1 ∧
        ∀ e ∈ v.2, e.1 ≠ c!"fieldtype"
  | _ => True

/-- A description carries everything this field does. -/
structure Describable (env : Env) (f : Field) : Prop where
  common : ∀ c, f.common? = some c → CarriedCommon (ownKeys f) c
  default : CarriedDefault env f
  leaf : ∀ c k, f = .leaf c k → CarriedLeaf env k
  parts : CarriedParts env f

end Scheme
