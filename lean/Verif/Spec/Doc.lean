import Verif.Model.Doc
import Verif.Spec.Describe
import Verif.Spec.Formatter

/-! What the documentation of a field says. -/

namespace Scheme

/-! ### the options of a block -/

/-- The text of a value. -/
def shownText (env : Env) : Val → Str
  | .str s => s
  | v => env.str v

/-- A value that is simple data is written, one that cannot be described is not. -/
inductive Written (text : Val → Str) (name : Str) : Val → List (Str × Str) → Prop
  | none : Written text name .none []
  | opaque {v} : OpaqueVal v → Written text name v []
  | plain {v} : PlainVal v → v ≠ .none → Written text name v [(name, text v)]

/-- The same, but empty values are not written either. -/
inductive WrittenFull (text : Val → Str) (name : Str) : Val → List (Str × Str) → Prop
  | empty {v} : v.truthy = false → WrittenFull text name v []
  | opaque {v} : OpaqueVal v → WrittenFull text name v []
  | plain {v} : PlainVal v → v.truthy = true → WrittenFull text name v [(name, text v)]

/-- For the values of a Map, the type of the keys is mentioned first. -/
def keysText : Option Str → Str
  | some k => k ++ c!": "
  | none => []

/-- Everything a block says besides its limits: type, description, notes, flags, constant, default, title, in this order.
`required` is not mentioned in the documentation of a schema. -/
def Heading (env : Env) (role : Option Str) (key : Option Str) (type : Str) (c : Common) (dflt o : List (Str × Str)) : Prop :=
  ∃ de no co ti, WrittenFull (shownText env) c!"description" c.description de ∧
    WrittenFull (shownText env) c!"notes" c.notes no ∧ Written env.repr c!"constant" c.constant co ∧
    Written (shownText env) c!"title" c.title ti ∧
    o = [(c!"type", keysText key ++ type)] ++ de ++ no ++
      (if c.nonnull then [(c!"nonnull", [])] else []) ++ (if c.ignoreNull then [(c!"ignore_null", [])] else []) ++
      (if c.required && role != some c!"schema" then [(c!"required", [])] else []) ++ co ++ dflt ++ ti

/-- The default of a simple field is written as it is, that of other fields as it is described. -/
def DefaultWritten (env : Env) : Field → List (Str × Str) → Prop
  | .leaf c _, o => Written env.repr c!"default" c.default o
  | .union c _, o => Written env.repr c!"default" c.default o
  | f, o => (o = [] ∨ ∃ t, o = [(c!"default", t)]) ∧ ((∀ c, f.common? = some c → c.default.truthy = false) → o = [])

/-- A limit, if there is one. -/
def limitText (label : Str) : Option Str → List Str
  | some t => [label ++ t]
  | none => []

/-- The limits, if there are any. -/
def limitsOption (sep : Str) (l : List Str) : List (Str × Str) :=
  if l.isEmpty then [] else [(c!"constraints", joinStr sep l)]

/-- In ascending order: texts, or integers and booleans, or at most one value. -/
def Ascending (l : List Val) : Prop :=
  (∃ ss : List Str, l = ss.map .str ∧ ss.Pairwise fun a b => strLe a b = true) ∨
  (∃ ns : List Int, l.map numKey = ns.map some ∧ ns.Pairwise (· ≤ ·)) ∨ l.length ≤ 1

/-- Nothing is said about these. -/
def SaysNothing : Leaf → Prop
  | .integer .. | .float .. | .decimal .. | .datetime .. | .text .. | .enumeration .. => False
  | _ => True

/-- What is said about a simple field.  The limits of dates and times are not stated, nor are patterns; both limits of a
Decimal are called `min`. -/
inductive LeafSays (env : Env) (c : Common) : Leaf → List (Str × Str) → Prop
  | integer {mn mx} : LeafSays env c (.integer mn mx) (limitsOption c!", "
      (limitText c!"min=" (mn.map fun i => env.repr (.int i)) ++ limitText c!"max=" (mx.map fun i => env.repr (.int i))))
  | float {mn mx} : LeafSays env c (.float mn mx) (limitsOption c!" "
      (limitText c!"min=" (mn.map fun x => env.repr (.float x)) ++ limitText c!"max=" (mx.map fun x => env.repr (.float x))))
  | decimal {mn mx} : LeafSays env c (.decimal mn mx) (limitsOption c!", "
      (limitText c!"min=" (mn.map fun x => env.repr (.str (decStr x))) ++
        limitText c!"min=" (mx.map fun x => env.repr (.str (decStr x)))))
  | datetime {mn mx utc} : LeafSays env c (.datetime mn mx utc) (if utc then [(c!"constraints", c!"utc=True")] else [])
  | text {p mn mx strip} : LeafSays env c (.text p mn mx strip) (limitsOption c!", "
      (limitText c!"min_length=" (mn.map fun n => env.repr (.int n)) ++
        limitText c!"max_length=" (mx.map fun n => env.repr (.int n)) ++ if strip then [] else [c!"strip=false"]))
  | constant {vals ign} : PlainVal c.constant → c.constant ≠ .none → LeafSays env c (.enumeration vals ign) []
  | enumeration {vals ign ss} : (c.constant = .none ∨ OpaqueVal c.constant) → (ss.map Val.str).Perm vals →
      ss.Pairwise (fun a b => strLe a b = true) → LeafSays env c (.enumeration vals ign) [(c!"values", joinStr c!" " ss)]
  | other {k} : SaysNothing k → LeafSays env c k []

/-- What is said about required keys: they are listed in order. -/
inductive KeysSay (env : Env) : List Val → List (Str × Str) → Prop
  | none : KeysSay env [] []
  | some {req l} : req ≠ [] → l.Perm req → Ascending l → KeysSay env req [(c!"required_keys", env.repr (.list l))]

/-- The type of the keys of a Map. -/
def keyType : Option Field → Str
  | some k => k.type
  | none => c!"text"

/-- Has parts. -/
def Structural : Field → Prop
  | .leaf .. => False
  | _ => True

/-- The values of a Map get a block if they have parts or are described. -/
def GetsBlock (g : Field) : Prop :=
  Structural g ∨ ∃ c, g.common? = some c ∧ PlainVal c.description ∧ c.description.truthy = true

/-! ### the blocks -/

mutual
/-- The block of a field with the given name, for the values of a Map with keys of the given type. -/
inductive Documents (env : Env) (role : Option Str) (members : Bool) : Str → Option Str → Field → DocNode → Prop
  | block {name key f c dflt head opts content} : f.common? = some c → DefaultWritten env f dflt →
      Heading env role key f.type c dflt head → Says env role members f opts content →
      Documents env role members name key f (.block c!"field" [name] (head ++ opts) content)
/-- The options and the blocks within that a block has for the kind of field it is about. -/
inductive Says (env : Env) (role : Option Str) (members : Bool) : Field → List (Str × Str) → List DocNode → Prop
  | leaf {c k o} : LeafSays env c k o → Says env role members (.leaf c k) o []
  | sequence {c item mn mx u g b} : resolve env item = some g → Documents env role members [] none g b →
      Says env role members (.sequence c item mn mx u) ((if u then [(c!"unique", [])] else []) ++
        limitsOption c!", " (limitText c!"min=" (mn.map fun n : Nat => intStr n) ++
          limitText c!"max=" (mx.map fun n : Nat => intStr n))) [b]
  | mapBlock {c key value req ro g b} : KeysSay env req ro → resolve env value = some g → GetsBlock g →
      Documents env role members [] (some (keyType key)) g b → Says env role members (.map c key value req) ro [b]
  | mapType {c key value req ro g} : KeysSay env req ro → resolve env value = some g → ¬ GetsBlock g →
      Says env role members (.map c key value req) (ro ++ [(c!"subtype", keyType key ++ c!": " ++ g.type)]) []
  | tuple {c values bs} : DocumentsAll env role members values bs → Says env role members (.tuple c values) [] bs
  | union {c} : Says env role members (.union c []) [] []
  | empty {c strict ko} : Says env role members (.structure c [] strict ko) [] []
  | structure {c defn ms strict ko bs} : members = true → ms.Perm defn → DocumentsMembers env role members ms bs →
      Says env role members (.structure c defn strict ko) [] bs
  | noVariant {c disc strict ko} : Says env role members (.poly c disc [] strict ko) [] []
  | poly {c disc name variants vs strict ko bs} : members = true → variants ≠ [] → disc.name = some name →
      vs.Perm variants → Ascending (vs.map (·.1)) → DocumentsVariants env role members name vs bs →
      Says env role members (.poly c disc variants strict ko) [(c!"polymorphic", [])] bs
/-- The parts of a Tuple in order. -/
inductive DocumentsAll (env : Env) (role : Option Str) (members : Bool) : List Field → List DocNode → Prop
  | nil : DocumentsAll env role members [] []
  | cons {f g r b bs} : resolve env f = some g → Documents env role members [] none g b →
      DocumentsAll env role members r bs → DocumentsAll env role members (f :: r) (b :: bs)
/-- The members of a Structure. -/
inductive DocumentsMembers (env : Env) (role : Option Str) (members : Bool) : List (Str × Field) → List DocNode → Prop
  | nil : DocumentsMembers env role members [] []
  | cons {name f g r b bs} : resolve env f = some g → Documents env role members name none g b →
      DocumentsMembers env role members r bs → DocumentsMembers env role members ((name, f) :: r) (b :: bs)
/-- The variants of a polymorphic Structure: members called `type` are left out. -/
inductive DocumentsVariants (env : Env) (role : Option Str) (members : Bool) :
    Str → List (Val × List (Str × Field)) → List DocNode → Prop
  | nil {name} : DocumentsVariants env role members name [] []
  | cons {name id defn ms r content bs} : ms.Perm (defn.filter fun e => e.1 != c!"type") →
      DocumentsMembers env role members ms content → DocumentsVariants env role members name r bs →
      DocumentsVariants env role members name ((id, defn) :: r)
        (.block c!"field" [name ++ c!"=" ++ env.repr id] [(c!"polymorphic_discriminator", [])] content :: bs)
end

/-! ### which fields can be documented -/

/-- A part that is documented with its field. -/
inductive DocPart (env : Env) : Field → Field → Prop
  | item {c item mn mx u g} : resolve env item = some g → DocPart env (.sequence c item mn mx u) g
  | value {c key value req g} : resolve env value = some g → GetsBlock g → DocPart env (.map c key value req) g
  | entry {c values f g} : f ∈ values → resolve env f = some g → DocPart env (.tuple c values) g
  | member {c defn name f strict ko g} : (name, f) ∈ defn → resolve env f = some g →
      DocPart env (.structure c defn strict ko) g
  | variant {c disc variants id defn name f strict ko g} : (id, defn) ∈ variants → (name, f) ∈ defn → name ≠ c!"type" →
      resolve env f = some g → DocPart env (.poly c disc variants strict ko) g

/-- The field itself, or a part documented with it. -/
inductive DocWithin (env : Env) : Field → Field → Prop
  | refl {f} : DocWithin env f f
  | step {f g h} : DocPart env f g → DocWithin env g h → DocWithin env f h

/-- Fields that cannot be documented, and the exception this raises: a Union; an Enumeration of other values than texts,
unless a constant is stated; a Map whose required keys cannot be sorted, a polymorphic Structure whose identities cannot
be; and, unless the generator was given a method to list members, a Structure that has any. -/
inductive Obstacle (members : Bool) : Field → PyErr → Prop
  | union {c f fs} : Obstacle members (.union c (f :: fs)) .nameError
  | enumeration {c vals ign v} : v ∈ vals → v.isStr = false → (c.constant = .none ∨ OpaqueVal c.constant) →
      Obstacle members (.leaf c (.enumeration vals ign)) .typeError
  | keys {c key value req} : ¬ Fmt.Sortable req → Obstacle members (.map c key value req) .typeError
  | identities {c disc variants strict ko} : ¬ Fmt.Sortable (variants.map (·.1)) →
      Obstacle members (.poly c disc variants strict ko) .typeError
  | structure {c m ms strict ko} : members = false → Obstacle members (.structure c (m :: ms) strict ko) .attributeError
  | poly {c disc v vs strict ko} : members = false → Obstacle members (.poly c disc (v :: vs) strict ko) .attributeError

/-- What a field sets is simple data or cannot be described; further aspects are not called like a parameter. -/
structure DocSimple (env : Env) (f : Field) : Prop where
  common : ∀ c, f.common? = some c → Carried c.constant ∧ Carried c.description ∧ Carried c.title ∧ Carried c.notes
  aspects : ∀ c, f.common? = some c → (c.aspects.map (·.1)).Nodup ∧
    ∀ e ∈ c.aspects, e.1 ∉ ownKeys f ∧ e.1 ∉ commonKeys ∧ e.1 ≠ c!"structural"
  default : ∀ c, (∃ k, f = .leaf c k) ∨ (∃ fs, f = .union c fs) → Carried c.default
  enumeration : ∀ c vals ign, f = .leaf c (.enumeration vals ign) → ∀ v ∈ vals, PlainVal v
  keys : ∀ c key value req, f = .map c key value req → ∀ v ∈ req, PlainVal v
  identities : ∀ c disc variants strict ko, f = .poly c disc variants strict ko → (∃ s, disc.name = some s) ∧
    (variants.Pairwise fun a b => pyEq b.1 a.1 = false) ∧ ∀ v ∈ variants, serializeOf env disc v.1 = .ok v.1

/-- The method of the generator that lists members: those that are not excluded, in some order; or there is none. -/
def ListsMembers (w : DocWorld) (members : Bool) : Prop :=
  match w.collate with
  | none => members = false
  | some f => members = true ∧ ∀ (ms : List (Str × Val)) (excluded : List Str), ∃ l,
      f (ms.map fun e => (.str e.1, e.2)) excluded = .ok l ∧ l.Perm (ms.filter fun e => !excluded.contains e.1)

/-- Descriptions of fields that occur as values are simple data. -/
def FixedDescriptions (env : Env) : Prop := ∀ h v, env.describe h = .ok v → descParam env v = .ok v

/-- The block of a section says so first. -/
def asSection (sectional : Bool) : DocNode → DocNode
  | .block directive args params content =>
    .block directive args ((if sectional then [(c!"sectional", [])] else []) ++ params) content
  | .text s => .text s

end Scheme
