import Verif.Model.Str

/-! Python values that flow through the library. -/

namespace Scheme

/-- A byte. -/
abbrev Byte := Fin 256

/-- A Python `float`.  Simplification: finite values are exact rationals (only comparison and
identity are used by the library) and -0.0 is identified with 0.0. -/
inductive PyFloat
  | fin (q : Rat)
  | inf (neg : Bool)
  | nan
  deriving DecidableEq

/-- A `decimal.Decimal`.  Simplification: signalling and diagnostic NaNs are not represented. -/
inductive Dec
  | fin (neg : Bool) (coeff : Nat) (exp : Int)
  | inf (neg : Bool)
  | nan
  deriving DecidableEq

/-- A `datetime.date`. -/
structure PDate where
  year : Nat
  month : Nat
  day : Nat
  deriving DecidableEq

/-- A `datetime.time`.  Simplification: `tzinfo` of times is not represented. -/
structure PTime where
  hour : Nat
  minute : Nat
  second : Nat
  micro : Nat
  deriving DecidableEq

/-- `tzinfo` objects: the library's UTC and LOCAL (scheme/timezone.py:80-81) and any other. -/
inductive Tz
  | utc
  | localTz
  | other (id : Nat)
  deriving DecidableEq

/-- A `datetime.datetime`. -/
structure PDateTime where
  date : PDate
  time : PTime
  tz : Option Tz
  deriving DecidableEq

/-- Exception classes below `StructuralError` (scheme/exceptions.py:34, 203, 211). -/
inductive ErrCls
  | structural
  | validation
  | invalidType
  deriving DecidableEq

/-- Python values.  `dict` is an insertion ordered association list.  Fields, surrogates and other
objects occurring as *values* are handles (`field`, `surr`, `obj`).  `exc` is a `StructuralError`
instance with its `identity`, `errors`, `structure` and `value` attributes
(scheme/exceptions.py:59-70); its `field` and `tracebacks` attributes are not represented.
Simplification: a surrogate is a dict subclass, but only Surrogate fields treat `surr` as one. -/
inductive Val
  | none
  | bool (b : Bool)
  | int (i : Int)
  | float (x : PyFloat)
  | str (s : Str)
  | bytes (b : List Byte)
  | date (d : PDate)
  | time (t : PTime)
  | datetime (d : PDateTime)
  | decimal (d : Dec)
  | list (l : List Val)
  | tuple (l : List Val)
  | dict (d : List (Val × Val))
  | field (h : Nat)
  | surr (h : Nat)
  | obj (h : Nat)
  | exc (cls : ErrCls) (identity : List Str) (errors : List Val) (struct : Val) (value : Val)

instance : Inhabited Val := ⟨.none⟩

namespace Val

def isNone : Val → Bool
  | .none => true
  | _ => false

/-- `isinstance(v, str)` -/
def isStr : Val → Bool
  | .str _ => true
  | _ => false

/-- `isinstance(v, StructuralError)` -/
def isExc : Val → Bool
  | .exc .. => true
  | _ => false

/-- `bool(v)`.  Objects are truthy. -/
def truthy : Val → Bool
  | .none => false
  | .bool b => b
  | .int i => i ≠ 0
  | .float (.fin q) => q ≠ 0
  | .float _ => true
  | .str s => !s.isEmpty
  | .bytes b => !b.isEmpty
  | .decimal (.fin _ c _) => c ≠ 0
  | .list l => !l.isEmpty
  | .tuple l => !l.isEmpty
  | .dict d => !d.isEmpty
  | _ => true

end Val

/-- The rational value of `coeff * 10 ^ exp`. -/
def decRat (neg : Bool) (coeff : Nat) (exp : Int) : Rat :=
  let m : Rat := if exp < 0 then mkRat coeff (10 ^ exp.natAbs) else ((coeff * 10 ^ exp.natAbs : Nat) : Rat)
  if neg then -m else m

/-- The extended real denoted by a decimal. -/
def decNum : Dec → PyFloat
  | .fin n c e => .fin (decRat n c e)
  | .inf n => .inf n
  | .nan => .nan

/-- The extended real denoted by a number object, used by cross-type numeric equality. -/
def numOf : Val → Option PyFloat
  | .bool b => some (.fin (if b then 1 else 0))
  | .int i => some (.fin i)
  | .float x => some x
  | .decimal d => some (decNum d)
  | _ => Option.none

/-- Equality of extended reals: NaN is not equal to anything. -/
def numEq : PyFloat → PyFloat → Bool
  | .fin a, .fin b => a == b
  | .inf a, .inf b => a == b
  | _, _ => false

mutual
/-- `a == b`.  Simplifications: two objects (fields, surrogates, exceptions, opaque objects) are
equal iff they are the same handle (exceptions: never, they compare by identity); aware datetimes
in different zones compare unequal. -/
def pyEq : Val → Val → Bool
  | .none, .none => true
  | .str a, .str b => a == b
  | .bytes a, .bytes b => a == b
  | .date a, .date b => a == b
  | .time a, .time b => a == b
  | .datetime a, .datetime b => a == b
  | .list a, .list b => pyEqL a b
  | .tuple a, .tuple b => pyEqL a b
  | .dict a, .dict b => a.length == b.length && pyEqD a b
  | .field a, .field b => a == b
  | .surr a, .surr b => a == b
  | .obj a, .obj b => a == b
  | a, b =>
    match numOf a, numOf b with
    | some x, some y => numEq x y
    | _, _ => false
/-- Elementwise equality of lists. -/
def pyEqL : List Val → List Val → Bool
  | [], [] => true
  | a :: r, b :: s => pyEq a b && pyEqL r s
  | _, _ => false
/-- Every entry of the first dict has an equal entry in the second. -/
def pyEqD : List (Val × Val) → List (Val × Val) → Bool
  | [], _ => true
  | (k, v) :: r, d => (d.any fun e => pyEq k e.1 && pyEq v e.2) && pyEqD r d
end

/-- `v in l`.  Simplification: the identity shortcut of `in` is not represented (it only matters
for NaN and for exception objects). -/
def pyIn (v : Val) (l : List Val) : Bool := l.any (pyEq v)

/-- `d.get(k)` / `d[k]`; `none` when the key is absent. -/
def dictGet (d : List (Val × Val)) (k : Val) : Option Val :=
  match d with
  | [] => Option.none
  | (k', v) :: r => if pyEq k k' then some v else dictGet r k

/-- `d[k] = v`: overwrites in place (keeping the old key object), otherwise appends. -/
def dictSet (d : List (Val × Val)) (k v : Val) : List (Val × Val) :=
  match d with
  | [] => [(k, v)]
  | (k', v') :: r => if pyEq k k' then (k', v) :: r else (k', v') :: dictSet r k v

/-- `del d[k]` for a present key, no-op otherwise. -/
def dictDel (d : List (Val × Val)) (k : Val) : List (Val × Val) :=
  match d with
  | [] => []
  | (k', v') :: r => if pyEq k k' then r else (k', v') :: dictDel r k

mutual
/-- Whether `hash(v)` succeeds. -/
def hashable : Val → Bool
  | .list _ => false
  | .dict _ => false
  | .surr _ => false
  | .tuple l => hashableL l
  | _ => true
def hashableL : List Val → Bool
  | [] => true
  | v :: r => hashable v && hashableL r
end

/-- `len(set(l)) == len(l)`, for hashable elements: no two positions hold equal values. -/
def allDistinct : List Val → Bool
  | [] => true
  | v :: r => !pyIn v r && allDistinct r

/-- A raised `StructuralError` (or subclass). -/
structure SErr where
  cls : ErrCls
  identity : List Str
  errors : List Val
  struct : Val
  value : Val

/-- The exception object as a value. -/
def SErr.toVal (e : SErr) : Val := .exc e.cls e.identity e.errors e.struct e.value

/-- Python's built-in exception kinds that can reach a caller. -/
inductive PyErr
  | typeError | valueError | keyError | attributeError | indexError | nameError
  | overflowError | invalidOperation | binasciiError | recursionError | notImplemented | runtimeError
  | other (n : Nat)
  deriving DecidableEq

/-- Exceptions escaping library calls: scheme's own (scheme/exceptions.py) and built-in ones. -/
inductive Exn
  | structural (e : SErr)
  | undefinedField
  | undefinedParameter
  | cannotExtract
  | cannotDescribe
  | cannotFilter
  | cannotInterpolate
  | excluded
  | py (e : PyErr)

end Scheme
