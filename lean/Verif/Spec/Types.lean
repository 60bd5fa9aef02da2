import Verif.Spec.Settled
import Verif.Spec.Schema

/-! The Python types of the values fields take, write and read. -/

namespace Scheme

/-- Python types: `text` is `str`, `octets` is `bytes`, the others go by their names; `other` is anything else. -/
inductive PyType
  | null | flag | int | float | text | octets | date | datetime | time | decimal | list | tuple | dict | schema | surrogate | error | other
  deriving DecidableEq

/-- `type(value)`. -/
def typeOf : Val → PyType
  | .none => .null
  | .bool _ => .flag
  | .int _ => .int
  | .float _ => .float
  | .str _ => .text
  | .bytes _ => .octets
  | .date _ => .date
  | .datetime _ => .datetime
  | .time _ => .time
  | .decimal _ => .decimal
  | .list _ => .list
  | .tuple _ => .tuple
  | .dict _ => .dict
  | .field _ => .schema
  | .surr _ => .surrogate
  | .exc .. => .error
  | _ => .other

/-- The native types of a field; `none` when a field is not for particular types. -/
def nativeTypes : Field → Option (List PyType)
  | .leaf _ k => match k with
    | .binary .. => some [.octets]
    | .boolean => some [.flag]
    | .date .. => some [.date, .datetime]
    | .datetime .. => some [.datetime]
    | .decimal .. => some [.decimal]
    | .definition _ => some [.schema]
    | .email .. => some [.text]
    | .error => some [.error]
    | .float .. => some [.float]
    | .integer .. => some [.int]
    | .surrogate _ => some [.surrogate]
    | .text .. => some [.text]
    | .time .. => some [.time]
    | .token _ => some [.text]
    | .uuid => some [.text]
    | .any => none
    | .enumeration .. => none
    | .object => none
  | .sequence .. => some [.list]
  | .tuple .. => some [.list, .tuple]
  | .map .. => some [.dict]
  | .structure .. => some [.dict]
  | .poly .. => some [.dict]
  | .union .. => none
  | .undef _ => none

/-- The types a field writes. -/
def writtenTypes : Field → Option (List PyType)
  | .leaf _ k => match k with
    | .binary .. => some [.octets]
    | .boolean => some [.flag]
    | .date .. => some [.text]
    | .datetime .. => some [.text]
    | .decimal .. => some [.text]
    | .email .. => some [.text]
    | .float .. => some [.float]
    | .integer .. => some [.int]
    | .text .. => some [.text]
    | .time .. => some [.text]
    | .token _ => some [.text]
    | .uuid => some [.text]
    | _ => none
  | .sequence .. => some [.list]
  | .tuple .. => some [.tuple]
  | .map .. => some [.dict]
  | .structure .. => some [.dict]
  | .poly .. => some [.dict]
  | .union .. => none
  | .undef _ => none

/-- The types of serialized values a field may read: others it rejects. -/
def readTypes : Field → Option (List PyType)
  | .leaf _ k => match k with
    | .binary .. => some [.octets]
    | .boolean => some [.flag]
    | .date .. => some [.date, .datetime, .text]
    | .datetime .. => some [.datetime, .text]
    | .decimal .. => some [.decimal, .int, .flag, .float, .text, .list, .tuple]
    | .email .. => some [.text]
    | .float .. => some [.float, .int, .flag, .text, .octets, .decimal]
    | .integer .. => some [.int, .float, .text, .octets, .decimal]
    | .text .. => some [.text]
    | .time .. => some [.time, .text]
    | .token _ => some [.text]
    | .uuid => some [.text]
    | _ => none
  | .sequence .. => some [.list]
  | .tuple .. => some [.list, .tuple]
  | .map .. => some [.dict]
  | .structure .. => some [.dict]
  | .poly .. => some [.dict]
  | .union .. => none
  | .undef _ => none

/-- No type is in both. -/
def DisjointTypes (a b : List PyType) : Prop := ∀ t ∈ a, t ∉ b

/-- Every alternative is defined, meets the restrictions for idempotence, has no error messages of its own but such as name only
the field, and is for particular types. -/
def PlainAlternatives (env : Env) (fs : List Field) : Prop :=
  ∀ f ∈ fs, ∃ g, resolve env f = some g ∧ (nativeTypes g).isSome ∧ plainErrors g ∧ Settled env g

/-- Native values of a later alternative are not of the types of an earlier one. -/
def NativeTypesApart (env : Env) (fs : List Field) : Prop :=
  fs.Pairwise fun f f' => ∀ g g' a b, resolve env f = some g → resolve env f' = some g' →
    nativeTypes g = some a → nativeTypes g' = some b → DisjointTypes b a

/-- What a later alternative writes is not of the types an earlier one reads; `t` says what becomes of a type on the way. -/
def WrittenTypesApart (env : Env) (t : PyType → PyType) (fs : List Field) : Prop :=
  (∀ f ∈ fs, ∀ g, resolve env f = some g → (writtenTypes g).isSome) ∧
  fs.Pairwise fun f f' => ∀ g g', resolve env f = some g → resolve env f' = some g' →
    ∃ a b, readTypes g = some a ∧ writtenTypes g' = some b ∧ DisjointTypes (b.map t) a

/-- JSON turns tuples into lists. -/
def jsonType : PyType → PyType
  | .tuple => .list
  | t => t

end Scheme
