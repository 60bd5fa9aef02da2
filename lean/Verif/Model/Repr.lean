import Verif.Model.Doc

/-! `repr(field)` (scheme/field.py:214-233 and the `__repr__` methods of scheme/fields/*.py).

Field objects may refer to themselves, and CPython's `repr` of dicts and tuples notices when it meets an object whose
`repr` is being made.  So the objects are given as a graph of cells addressed by numbers. -/

namespace Scheme

/-- The parameters of a field object; other fields, and the dicts and tuples that hold them, are given by their
addresses.  `structure` has the name of the discriminator when there is one. -/
inductive RKind
  | leaf (k : Leaf)
  | sequence (item : Nat) (min max : Option Nat) (unique : Bool)
  | map (key : Option Nat) (value : Nat) (required : List Val)
  | tuple (values : Nat)
  | union (fields : Nat)
  | structure (defn : Nat) (disc : Option (Option Str)) (strict : Bool) (keyOrder : List Str)

/-- An object: a field with the name of its class, an `Undefined` placeholder, or a tuple or dict of objects. -/
inductive RCell
  | field (cls : Str) (c : Common) (k : RKind)
  | undefined
  | tuple (items : List Nat)
  | dict (entries : List (Val × Nat))

/-- The objects, and what `repr` gives for values and for placeholders (`object.__repr__`).  Simplification: `repr` of a
value does not raise. -/
structure RWorld where
  cell : Nat → RCell
  repr : Val → Str
  padYear : Bool
  placeholder : Nat → Str

/-- `'key=%r' % v`: a tuple is taken as the arguments of `%`, so it must have exactly one element. -/
def showR (w : RWorld) (key : Str) : Val → Except PyErr Str
  | .tuple [x] => .ok (key ++ c!"=" ++ w.repr x)
  | .tuple _ => .error .typeError
  | v => .ok (key ++ c!"=" ++ w.repr v)

/-- `if p: aspects.append(...)` -/
def reprWhen (p : Bool) (r : Except PyErr Str) : Except PyErr (List Str) :=
  if p then r.map fun t => [t] else .ok []

/-- `if x is not None: aspects.append('key=%r' % ...)` -/
def reprOpt {α : Type} (w : RWorld) (key : Str) (f : α → Val) : Option α → Except PyErr (List Str)
  | some a => (showR w key (f a)).map fun t => [t]
  | none => .ok []

/-- Two optional parameters, in this order. -/
def reprPair {α : Type} (w : RWorld) (lo hi : Str) (f : α → Val) (a b : Option α) : Except PyErr (List Str) := do
  let x ← reprOpt w lo f a
  let y ← reprOpt w hi f b
  return x ++ y

def natVal (n : Nat) : Val := .int n

/-- `', '.join([repr(value) for value in enumeration])` (enumeration.py:41).  Simplification: the texts are made when the
field is constructed; here they are made from the values as they are. -/
def reprEach (w : RWorld) (l : List Val) : Str := joinStr c!", " (l.map w.repr)

/-- `sorted(l)`, see `docSorted` -/
def reprSorted (w : RWorld) (key : Str) (l : List Val) : Except PyErr (List Str) :=
  if l.isEmpty then .ok []
  else
    match docSorted (.list l) with
    | .ok s => (showR w key (.list s)).map fun t => [t]
    | .error _ => .error .typeError

/-- The aspects that the fields without parts pass to `Field.__repr__`, each from its `__repr__` method: binary.py:36-42,
date.py:48-54, datetime.py:51-60, decimal.py:50-56, email.py:51-57 (followed by text.py:48-57, `strip` being always
false, email.py:46), enumeration.py:43-44, float.py:30-36, integer.py:30-36, surrogate.py:30-34, text.py:48-57,
time.py:44-50, token.py:24-28; the others have none. -/
def leafAspects (w : RWorld) : Leaf → Except PyErr (List Str)
  | .binary a b => reprPair w c!"min_length" c!"max_length" natVal a b
  | .date a b => reprPair w c!"minimum" c!"maximum" (fun d => .str (dateStr w.padYear d)) a b
  | .datetime a b utc => do
    let l ← reprPair w c!"minimum" c!"maximum" (fun d => .str (dateTimeStr w.padYear d)) a b
    return l ++ (if utc then [c!"utc=True"] else [])
  | .decimal a b => reprPair w c!"minimum" c!"maximum" .decimal a b
  | .email a b multiple extended => do
    let l ← reprPair w c!"min_length" c!"max_length" natVal a b
    return (if multiple then [c!"multiple=True"] else []) ++ (if extended then [c!"extended=True"] else []) ++
      l ++ [c!"strip=False"]
  | .enumeration vals _ => .ok [c!"enumeration=[" ++ reprEach w vals ++ c!"]"]
  | .float a b => reprPair w c!"minimum" c!"maximum" .float a b
  | .integer a b => reprPair w c!"minimum" c!"maximum" .int a b
  | .surrogate valid => reprSorted w c!"valid_surrogates" (valid.map .str)
  | .text _ a b strip => do
    let l ← reprPair w c!"min_length" c!"max_length" natVal a b
    return l ++ (if strip then [] else [c!"strip=False"])
  | .time a b => reprPair w c!"minimum" c!"maximum" .time a b
  | .token segments => reprOpt w c!"segments" .int segments
  | _ => .ok []

/-- `if self.key: aspects.append('key=%r' % self.key)` (map.py:68-69) -/
def reprKey (rec : Nat → Except PyErr Str) : Option Nat → Except PyErr (List Str)
  | some k => (rec k).map fun t => [c!"key=" ++ t]
  | none => .ok []

/-- `if self.polymorphic_on: aspects.append('polymorphic_on=%r' % self.polymorphic_on.name)` (structure.py:117-118) -/
def reprDisc (w : RWorld) : Option (Option Str) → Except PyErr (List Str)
  | some (some s) => (showR w c!"polymorphic_on" (.str s)).map fun t => [t]
  | some none => (showR w c!"polymorphic_on" .none).map fun t => [t]
  | none => .ok []

/-- The aspects a field passes to `Field.__repr__`: sequence.py:63-71, map.py:66-75, tuple.py:50-51, union.py:44-45,
structure.py:115-123. -/
def kindAspects (w : RWorld) (rec : Nat → Except PyErr Str) : RKind → Except PyErr (List Str)
  | .leaf k => leafAspects w k
  | .sequence item a b unique => do
    let t ← rec item
    let l ← reprPair w c!"min_length" c!"max_length" natVal a b
    return (c!"item=" ++ t) :: (l ++ (if unique then [c!"unique=True"] else []))
  | .map key value required => do
    let k ← reprKey rec key
    let t ← rec value
    let r ← reprSorted w c!"required_keys" required
    return k ++ ((c!"value=" ++ t) :: r)
  | .tuple values => do
    let t ← rec values
    return [c!"values=" ++ t]
  | .union fields => do
    let t ← rec fields
    return [c!"fields=" ++ t]
  | .structure defn disc strict keyOrder => do
    let t ← rec defn
    let p ← reprDisc w disc
    let o ← reprWhen (!keyOrder.isEmpty) (showR w c!"key_order" (.list (keyOrder.map .str)))
    return (c!"structure=" ++ t) :: (p ++ ((if strict then [] else [c!"strict=False"]) ++ o))

/-- `if self.name: aspects.append('name=%r' % self.name)` (field.py:216-217) -/
def reprName (w : RWorld) : Option Str → Except PyErr (List Str)
  | some (a :: s) => (showR w c!"name" (.str (a :: s))).map fun t => [t]
  | _ => .ok []

/-- Field.__repr__ (field.py:214-233), the aspects after those of the subclass -/
def tailAspects (w : RWorld) (c : Common) : Except PyErr (List Str) := do
  let d ← reprWhen (!c.default.isNone) (showR w c!"default" c.default)
  let t ← reprWhen c.title.truthy (showR w c!"title" c.title)
  return (if c.constant.truthy then [c!"constant=True"] else []) ++ (d ++ ((if c.nonnull then [c!"nonnull=True"] else []) ++
    ((if c.required then [c!"required=True"] else []) ++ ((if c.ignoreNull then [c!"ignore_null=True"] else []) ++ t))))

/-- `repr` of the items of a tuple -/
def reprItems (rec : Nat → Except PyErr Str) : List Nat → Except PyErr (List Str)
  | [] => .ok []
  | i :: r => do
    let t ← rec i
    let l ← reprItems rec r
    return t :: l

/-- `repr` of the entries of a dict -/
def reprEntries (w : RWorld) (rec : Nat → Except PyErr Str) : List (Val × Nat) → Except PyErr (List Str)
  | [] => .ok []
  | (k, i) :: r => do
    let t ← rec i
    let l ← reprEntries w rec r
    return (w.repr k ++ c!": " ++ t) :: l

/-- `tuple.__repr__` of the texts of the items: a single item is followed by a comma. -/
def tupleText : List Str → Str
  | [t] => c!"(" ++ t ++ c!",)"
  | l => c!"(" ++ joinStr c!", " l ++ c!")"

/-- `repr(x)` of the object at an address.  `running` are the addresses of the dicts and tuples whose `repr` is being
made (`Py_ReprEnter`).  The subclass makes its aspects first, then `Field.__repr__` those for name, default and title
(field.py:214-233). -/
def reprCell (w : RWorld) : Nat → List Nat → Nat → Except PyErr Str
  | 0, _, _ => .error .recursionError
  | n + 1, running, i =>
    match w.cell i with
    | .field cls c k => do
      let ps ← kindAspects w (reprCell w n running) k
      let a ← reprName w c.name
      let b ← tailAspects w c
      return cls ++ c!"(" ++ joinStr c!", " (a ++ (ps ++ b)) ++ c!")"
    | .undefined => .ok (w.placeholder i)
    | .tuple items =>
      if running.contains i then .ok c!"(...)"
      else (reprItems (reprCell w n (i :: running)) items).map tupleText
    | .dict entries =>
      if running.contains i then .ok c!"{...}"
      else (reprEntries w (reprCell w n (i :: running)) entries).map fun l => c!"{" ++ joinStr c!", " l ++ c!"}"

end Scheme
