import Verif.Spec.Calls

/-! The complete list of reasons for which processing can raise something else than a StructuralError. -/

namespace Scheme

/-- `t % (...)` with one `%s` fails on a tuple whose length is not one. -/
def badKeyText (k : Val) : Prop := ∃ l, k = .tuple l ∧ l.length ≠ 1

/-- `g` can turn `w` into `x` (at some depth and location). -/
def Returns (env : Env) (ph : Phase) (ser : Bool) (g : Field) (w x : Val) : Prop :=
  ∃ m anc, process env m g w ph ser anc = .ok x

/-- The declarations a structure field processes. -/
def Declarations (f : Field) (name : Str) (field : Field) : Prop :=
  match f with
  | .structure _ defn _ _ => (name, field) ∈ defn
  | .poly _ _ vs _ _ => ∃ i defn, (i, defn) ∈ vs ∧ (name, field) ∈ defn
  | _ => False

/-- The fields a container hands items to, other than structure members. -/
def Parts (f : Field) (field : Field) : Prop :=
  match f with
  | .sequence _ item _ _ _ => field = item
  | .map _ _ value _ => field = value
  | .tuple _ fs => field ∈ fs
  | .union _ fs => field ∈ fs
  | _ => False

/-- `Cause env ph ser f v e`: the field `f` itself (not one of its sub-fields) may raise the exception `e`,
which is not a StructuralError, when given `v`. -/
inductive Cause (env : Env) (ph : Phase) (ser : Bool) : Field → Val → Exn → Prop
  /-- a placeholder is processed directly -/
  | placeholder {s v} : Cause env ph ser (.undef s) v (.py .attributeError)
  /-- a user supplied error message mentions something else than the field -/
  | message {f v} : ¬ plainErrors f → Cause env ph ser f v (.py .keyError)
  /-- an item is given to a placeholder which is not defined yet -/
  | undefinedPart {f v p} : Parts f p → resolve env p = none → Cause env ph ser f v .undefinedField
  /-- likewise for a structure member -/
  | undefinedMember {f v d name p c} : f.common? = some c → containerInput env c v = some (.dict d) →
      Declarations f name p → (resolve env p).bind Field.common? = none → (∃ w, given d name = some w) →
      Cause env ph ser f v .undefinedField
  /-- a structure member which is absent is a placeholder not defined yet -/
  | absentPlaceholder {f v name p} : Declarations f name p → (resolve env p).bind Field.common? = none →
      Cause env ph ser f v (.py .attributeError)
  /-- an Enumeration reports 'invalid' without its 'values' parameter -/
  | enumeration {c vals ign v} : (c.constant ≠ .none ∧ (pyEq v c.constant = false ∨ c.pre ≠ none) ∨
      ∃ h x e, c.pre = some h ∧ env.pre h x = .error e) →
      Cause env ph ser (.leaf c (.enumeration vals ign)) v (.py .keyError)
  /-- malformed base64 -/
  | base64 {c mn mx b} : ph = .inbound → ser = true → b64Decode b = none →
      Cause env ph ser (.leaf c (.binary mn mx)) (.bytes b) (.py .binasciiError)
  /-- a datetime is compared with the bounds of a Date -/
  | dateBounds {c mn mx v} : (mn ≠ none ∨ mx ≠ none) → ((∃ d, v = .datetime d) ∨ c.pre ≠ none) →
      Cause env ph ser (.leaf c (.date mn mx)) v (.py .typeError)
  /-- a zone conversion fails -/
  | zone {c mn mx utc v d tz e} : env.astz d tz = .error e →
      Cause env ph ser (.leaf c (.datetime mn mx utc)) v (.py e)
  /-- a NaN is compared with the bounds of a Decimal, or the bounds are NaN -/
  | decimalNaN {c mn mx v} : (mn ≠ none ∨ mx ≠ none) →
      (mn = some .nan ∨ mx = some .nan ∨ v = .decimal .nan ∨ c.pre ≠ none ∨
        ser = true ∧ ph = .inbound ∧ toDec env v = some .nan) →
      Cause env ph ser (.leaf c (.decimal mn mx)) v (.py .invalidOperation)
  /-- a pair whose first part is not iterable is read as a serialized error -/
  | errorPair {c errs st e} : ph = .inbound → ser = true → unserializeErr errs st = .error e →
      Cause env ph ser (.leaf c .error) (.tuple [errs, st]) (.py e)
  /-- surrogates have no `identity` attribute -/
  | surrogateIdentity {c valid v} : valid ≠ [] →
      Cause env ph ser (.leaf c (.surrogate valid)) v (.py .attributeError)
  /-- the surrogate's own codec fails -/
  | surrogateIn {c valid v d e} : ph = .inbound → ser = true → env.surrUnserialize d = .error e →
      Cause env ph ser (.leaf c (.surrogate valid)) v e
  | surrogateOut {c valid v h e} : ph = .outbound → ser = true → env.surrSerialize h = .error e →
      Cause env ph ser (.leaf c (.surrogate valid)) v e
  /-- a field given as value cannot be described -/
  | describe {c valid v h e} : ph = .outbound → ser = true → env.describe h = .error e →
      Cause env ph ser (.leaf c (.definition valid)) v e
  /-- the items of a unique sequence are not all hashable -/
  | unique {c item mn mx v l w g x} : containerInput env c v = some (.list l) → w ∈ l →
      resolve env item = some g → Returns env ph ser g w x → hashable x = false →
      Cause env ph ser (.sequence c item mn mx true) v (.py .typeError)
  /-- a map key that is a tuple cannot be named in the location; a processed key must be hashable -/
  | mapKey {c kf value req v d k x k'} : containerInput env c v = some (.dict d) → (k, x) ∈ d →
      (k' = k ∧ badKeyText k' ∨ Returns env ph ser kf k k' ∧ (badKeyText k' ∨ hashable k' = false)) →
      Cause env ph ser (.map c (some kf) value req) v (.py .typeError)
  /-- a required key must be hashable -/
  | requiredKey {c kf value req v k} : k ∈ req → hashable k = false →
      Cause env ph ser (.map c kf value req) v (.py .typeError)
  /-- an identity must be hashable -/
  | identity {c dsc vs s ko v w x} : Returns env ph ser dsc w x → hashable x = false →
      Cause env ph ser (.poly c dsc vs s ko) v (.py .typeError)
  /-- `key_order` does not work for polymorphic structures -/
  | polyOrder {c dsc vs s ko v} : ko ≠ [] → Cause env ph ser (.poly c dsc vs s ko) v (.py .typeError)
  /-- `key_order` names something that is not declared -/
  | keyOrder {c defn s ko v name} : name ∈ ko → (∀ p, (name, p) ∉ defn) →
      Cause env ph ser (.structure c defn s ko) v (.py .keyError)
  | polyKeyOrder {c dsc vs s ko v i defn name} : (i, defn) ∈ vs → name ∈ ko → (∀ p, (name, p) ∉ defn) →
      Cause env ph ser (.poly c dsc vs s ko) v (.py .keyError)
  /-- the preprocessor of a sequence, map or tuple raises -/
  | preRaises {f c h v e} : f.common? = some c → (∀ k, f ≠ .leaf c k) → c.pre = some h → env.pre h v = .error e →
      Cause env ph ser f v (.py e)
  /-- the preprocessor of a container returns something else than a container -/
  | preType {f c h v w} : f.common? = some c → (∀ k, f ≠ .leaf c k) → c.pre = some h → env.pre h v = .ok w →
      (∀ l, w ≠ .list l) → Cause env ph ser f v (.py .typeError)
  | preAttr {f c h v w} : f.common? = some c → (∀ k, f ≠ .leaf c k) → c.pre = some h → env.pre h v = .ok w →
      (∀ d, w ≠ .dict d) → Cause env ph ser f v (.py .attributeError)

/-- Processing `f` on `v` involves processing `g` on `w`. -/
inductive Involves (env : Env) (ph : Phase) : Field → Val → Field → Val → Prop
  | here {f v} : Involves env ph f v f v
  | call {f v g w h x} : Calls env ph false f v g w → Involves env ph g w h x → Involves env ph f v h x

end Scheme
