import Verif.Model.Process

/-! Processing as it acts on Python's memory.

`Verif.Model.Process` computes with values.  Python's lists and dicts are objects which can be shared and
changed, so here the same code is modelled once more as operations on a heap: which objects it creates,
which it writes to, and which references it hands out.

Simplifications: tuples are heap objects too (they are never written to); an exception object holds the
contents which the offending value and the partial result have when it is raised, rather than references to
them (a refused field description: those it had before anything was taken out of it); a container produced by `describe()`, by a surrogate, by serializing an error or by importing an object
is built anew. -/

namespace Scheme

/-- A reference as Python code holds it: to an immutable object without parts, or to a container. -/
inductive HVal
  | atom (v : Val)
  | ref (a : Nat)

instance : Inhabited HVal := ⟨.atom .none⟩

/-- The contents of a container object. -/
inductive Cell
  | list (l : List HVal)
  | tuple (l : List HVal)
  | dict (d : List (HVal × HVal))
  | set (l : List HVal)

/-- The heap: the cell at each address; objects are never freed. -/
abbrev Heap := List Cell

/-- A part of a heap: the cells at some addresses. -/
abbrev Cells := Nat → Option Cell

/-- All of a heap. -/
def Heap.cells (h : Heap) : Cells := fun a => h[a]?

/-- The value is not a container. -/
def Val.isAtom : Val → Bool
  | .list _ => false
  | .tuple _ => false
  | .dict _ => false
  | _ => true

mutual
/-- Looking only at the given cells, the object referred to is this value. -/
inductive Depicts (A : Cells) : HVal → Val → Prop
  | atom {v} : v.isAtom = true → Depicts A (.atom v) v
  | list {a l vs} : A a = some (.list l) → DepictsL A l vs → Depicts A (.ref a) (.list vs)
  | tuple {a l vs} : A a = some (.tuple l) → DepictsL A l vs → Depicts A (.ref a) (.tuple vs)
  | dict {a d vs} : A a = some (.dict d) → DepictsD A d vs → Depicts A (.ref a) (.dict vs)
/-- The same, item by item. -/
inductive DepictsL (A : Cells) : List HVal → List Val → Prop
  | nil : DepictsL A [] []
  | cons {x v l vs} : Depicts A x v → DepictsL A l vs → DepictsL A (x :: l) (v :: vs)
/-- The same, entry by entry. -/
inductive DepictsD (A : Cells) : List (HVal × HVal) → List (Val × Val) → Prop
  | nil : DepictsD A [] []
  | cons {k x vk v d vs} : Depicts A k vk → Depicts A x v → DepictsD A d vs →
      DepictsD A ((k, x) :: d) ((vk, v) :: vs)
end

open Classical in
/-- The value referred to; `none` for an object that contains itself. -/
noncomputable def look (h : Heap) (x : HVal) : Option Val :=
  if e : ∃ v, Depicts h.cells x v then some e.choose else none

/-- Code that works on the heap: returns or raises, and leaves the heap in some state. -/
structure HM (α : Type) where
  run : Heap → Except Exn α × Heap

namespace HM

/-- Sequencing: an exception skips the rest, what was written stays written. -/
def bind {α β : Type} (m : HM α) (k : α → HM β) : HM β := ⟨fun h =>
  match m.run h with
  | (.ok x, h') => (k x).run h'
  | (.error e, h') => (.error e, h')⟩

instance : Monad HM where
  pure x := ⟨fun h => (.ok x, h)⟩
  bind := bind

/-- Code that does not touch the heap. -/
def lift {α : Type} (r : Except Exn α) : HM α := ⟨fun h => (r, h)⟩

/-- `raise` -/
def raise {α : Type} (e : Exn) : HM α := ⟨fun h => (.error e, h)⟩

/-- A new container with this content. -/
def alloc (c : Cell) : HM Nat := ⟨fun h => (.ok h.length, h ++ [c])⟩

/-- The content of the container at this address. -/
def get (a : Nat) : HM (Option Cell) := ⟨fun h => (.ok h[a]?, h)⟩

/-- Replaces the content of the container at this address. -/
def put (a : Nat) (c : Cell) : HM Unit := ⟨fun h => (.ok (), h.set a c)⟩

/-- The value referred to, as `==`, `hash` and the functions working on immutable values see it. -/
noncomputable def read (x : HVal) : HM Val := ⟨fun h =>
  match look h x with
  | some v => (.ok v, h)
  | none => (.error (.py .recursionError), h)⟩

end HM

open HM

mutual
/-- Builds a new object with this value, all of its containers new. -/
def build : Val → HM HVal
  | .list l => do
    let xs ← buildL l
    let a ← alloc (.list xs)
    return .ref a
  | .tuple l => do
    let xs ← buildL l
    let a ← alloc (.tuple xs)
    return .ref a
  | .dict d => do
    let xs ← buildD d
    let a ← alloc (.dict xs)
    return .ref a
  | v => return .atom v
def buildL : List Val → HM (List HVal)
  | [] => return []
  | v :: r => do
    let x ← build v
    let xs ← buildL r
    return x :: xs
def buildD : List (Val × Val) → HM (List (HVal × HVal))
  | [] => return []
  | (k, v) :: r => do
    let x ← build k
    let y ← build v
    let xs ← buildD r
    return (x, y) :: xs
end

/-- `sequence.append(x)` for the list at `a`. -/
def appendTo (a : Nat) (x : HVal) : HM Unit := do
  match ← get a with
  | some (.list l) => put a (.list (l ++ [x]))
  | _ => raise (.py .attributeError)

open Classical in
/-- `x == y` -/
noncomputable def hEq (h : Heap) (x y : HVal) : Bool :=
  match look h x, look h y with
  | some v, some w => pyEq v w
  | _, _ => false

/-- The entries of a dict after `d[k] = x`. -/
noncomputable def hdictSet (h : Heap) (d : List (HVal × HVal)) (k x : HVal) : List (HVal × HVal) :=
  match d with
  | [] => [(k, x)]
  | (k', y) :: r => if hEq h k k' then (k', x) :: r else (k', y) :: hdictSet h r k x

/-- `d[k]` in these entries. -/
noncomputable def hdictGet (h : Heap) (d : List (HVal × HVal)) (k : HVal) : Option HVal :=
  match d with
  | [] => none
  | (k', y) :: r => if hEq h k k' then some y else hdictGet h r k

/-- `d[k] = x` for the dict at `a`. -/
noncomputable def putItem (a : Nat) (k x : HVal) : HM Unit := ⟨fun h =>
  match h[a]? with
  | some (.dict d) => (.ok (), h.set a (.dict (hdictSet h d k x)))
  | _ => (.error (.py .typeError), h)⟩

/-- `d.get(k)` for the dict at `a`. -/
noncomputable def getItem (a : Nat) (k : HVal) : HM (Option HVal) := ⟨fun h =>
  match h[a]? with
  | some (.dict d) => (.ok (hdictGet h d k), h)
  | _ => (.error (.py .attributeError), h)⟩

/-- `k in names` for the set at `a`. -/
noncomputable def setHas (a : Nat) (k : HVal) : HM Bool := ⟨fun h =>
  match h[a]? with
  | some (.set l) => (.ok (l.any (hEq h k)), h)
  | _ => (.error (.py .typeError), h)⟩

/-- `names.remove(k)` for the set at `a`. -/
noncomputable def setRemove (a : Nat) (k : HVal) : HM Unit := ⟨fun h =>
  match h[a]? with
  | some (.set l) => (.ok (), h.set a (.set (l.filter fun x => !hEq h k x)))
  | _ => (.error (.py .attributeError), h)⟩

/-- The surroundings of processing on a heap: the object each field holds as its default, what the
preprocessors do, and what reading a description does to it: `Field.reconstruct`, which Definition calls on the value
itself (definition.py:44-49) and Surrogate on a part of it (surrogate.py:186-191), takes entries out of the dict it
is given (field.py:70).  Verif/Model/HeapReconstruct.lean says what it does. -/
structure HEnv where
  dflt : Common → HVal
  pre : Nat → HVal → HM HVal
  take : Leaf → HVal → HM Unit

/-- The processing function used for children. -/
abbrev HProc := Field → HVal → Phase → Bool → List Str → HM HVal

/-- `_is_null` of the structural fields (field.py:574-579). -/
def hIsNull (f : Field) (x : HVal) (anc : List Str) : HM Bool :=
  match x with
  | .atom v => lift (isNull f v anc)
  | .ref _ => return false

/-- `raise InvalidTypeError(identity=ancestry, field=self, value=value).construct('invalid')` -/
noncomputable def hInvalid {α : Type} (f : Field) (x : HVal) (anc : List Str) : HM α := do
  let v ← read x
  raise (mkErr f .invalidType anc v c!"invalid" [])

/-- Whether `Field.process` of this field hands out the very object it was given: Field, Enumeration and
Object neither convert nor copy (field.py:598-610, enumeration.py:76-79, object.py). -/
def Leaf.handsOut : Leaf → Bool
  | .any => true
  | .enumeration .. => true
  | .object => true
  | _ => false

/-- Whether unserializing a value of this field calls `Field.reconstruct` on objects of the value: Definition
(definition.py:44-49) and Surrogate (fields/surrogate.py:52-59, surrogate.py:186-191). -/
def Leaf.takes : Leaf → Bool
  | .definition _ => true
  | .surrogate _ => true
  | _ => false

/-- What `_unserialize_value` does to the objects of the value, if it is called (field.py:452-453). -/
def hTake (E : HEnv) (k : Leaf) (x : HVal) (ph : Phase) (ser : Bool) : HM Unit :=
  if k.takes && ser && decide (ph = .inbound) then E.take k x else pure ()

/-- `Field.process` (field.py:418-475) for the non-structural fields. -/
noncomputable def hLeaf (env : Env) (E : HEnv) (c : Common) (k : Leaf) (x : HVal) (ph : Phase) (ser : Bool)
    (anc : List Str) : HM HVal := do
  let v ← read x
  hTake E k x ph ser
  let w ← lift (processLeaf env c k v ph ser anc)
  match x with
  | .ref _ => if k.handsOut && !w.isAtom then return x else build w
  | .atom _ => build w

/-- `child.process(...)` inside a structural field. -/
def hCall (env : Env) (rec : HProc) (f : Field) (x : HVal) (ph : Phase) (ser : Bool)
    (anc : List Str) : HM HVal :=
  match resolve env f with
  | none => raise .undefinedField
  | some g => rec g x ph ser anc

/-- The outcome of a child call: its result, or the exception object of its structural error. -/
def hCollect (m : HM HVal) : HM (HVal × Bool) := ⟨fun h =>
  match m.run h with
  | (.ok y, h') => (.ok (y, true), h')
  | (.error (.structural e), h') => (.ok (.atom e.toVal, false), h')
  | (.error e, h') => (.error e, h')⟩

/-- A user preprocessor whose exceptions are not caught
(sequence.py:175-176, map.py:188-189, tuple.py:171-172). -/
def hRawPre (E : HEnv) (c : Common) (x : HVal) : HM HVal :=
  match c.pre with
  | some n => E.pre n x
  | none => return x

/-- The loop of Sequence.process (sequence.py:191-202); `a` is the list under construction. -/
def hSeqLoop (env : Env) (rec : HProc) (item : Field) (ph : Phase) (ser : Bool) (anc : List Str)
    (a : Nat) : Nat → List HVal → Bool → HM Bool
  | _, [], valid => return valid
  | i, x :: r, valid => do
    let y ← hCollect (hCall env rec item x ph ser (anc ++ [idxStep i]))
    appendTo a y.1
    hSeqLoop env rec item ph ser anc a (i + 1) r (valid && y.2)

/-- The items of the list that `x` refers to. -/
def listItems (x : HVal) : HM (Option (List HVal)) :=
  match x with
  | .ref a => do
    match ← get a with
    | some (.list l) => return some l
    | _ => return none
  | .atom _ => return none

/-- The items of the list or tuple that `x` refers to. -/
def tupleItems (x : HVal) : HM (Option (List HVal)) :=
  match x with
  | .ref a => do
    match ← get a with
    | some (.list l) => return some l
    | some (.tuple l) => return some l
    | _ => return none
  | .atom _ => return none

/-- The entries of the dict that `x` refers to. -/
def dictItems (x : HVal) : HM (Option (List (HVal × HVal))) :=
  match x with
  | .ref a => do
    match ← get a with
    | some (.dict d) => return some d
    | _ => return none
  | .atom _ => return none

/-- `len(set(sequence)) != len(sequence)` for the list at `a` (sequence.py:206-207). -/
noncomputable def hDuplicates (a : Nat) : HM Bool := do
  match ← read (.ref a) with
  | .list l => if l.all hashable then return !allDistinct l else raise (.py .typeError)
  | _ => raise (.py .typeError)

/-- Sequence.process (sequence.py:165-209). -/
noncomputable def hSequence (env : Env) (E : HEnv) (rec : HProc) (c : Common) (item : Field)
    (min max : Option Nat) (unique : Bool) (x : HVal) (ph : Phase) (ser : Bool) (anc : List Str) :
    HM HVal := do
  let f : Field := .sequence c item min max unique
  let anc := ancOr f anc
  if ← hIsNull f x anc then
    return .atom .none
  match ← listItems x with
  | none => hInvalid f x anc
  | some _ =>
    let x ← hRawPre E c x
    match ← listItems x with
    | none => raise (.py .typeError)
    | some l =>
      if violates (fun m => decide (l.length < m)) min then
        let v ← read x
        raise (mkErr f .validation anc v c!"min_length"
          [(c!"min_length", natStr (min.getD 0)), (c!"noun", itemNoun (min.getD 0))])
      else if violates (fun m => decide (l.length > m)) max then
        let v ← read x
        raise (mkErr f .validation anc v c!"max_length"
          [(c!"max_length", natStr (max.getD 0)), (c!"noun", itemNoun (max.getD 0))])
      else
        let a ← alloc (.list [])
        let valid ← hSeqLoop env rec item ph ser anc a 0 l true
        if !valid then
          let v ← read x
          let s ← read (.ref a)
          raise (.structural ⟨.validation, anc, [], s, v⟩)
        else if unique then
          if ← hDuplicates a then
            let v ← read x
            raise (mkErr f .validation anc v c!"duplicate" [])
          else return .ref a
        else return .ref a

/-- The loop of Tuple.process (tuple.py:182-193), for equally long lists; `a` is the list under
construction. -/
def hTupLoop (env : Env) (rec : HProc) (ph : Phase) (ser : Bool) (anc : List Str) (a : Nat) :
    Nat → List Field → List HVal → Bool → HM Bool
  | i, f :: fs, x :: xs, valid => do
    let y ← hCollect (hCall env rec f x ph ser (anc ++ [idxStep i]))
    appendTo a y.1
    hTupLoop env rec ph ser anc a (i + 1) fs xs (valid && y.2)
  | _, _, _, valid => return valid

/-- Tuple.process (tuple.py:163-198). -/
noncomputable def hTuple (env : Env) (E : HEnv) (rec : HProc) (c : Common) (values : List Field)
    (x : HVal) (ph : Phase) (ser : Bool) (anc : List Str) : HM HVal := do
  let f : Field := .tuple c values
  let anc := ancOr f anc
  if ← hIsNull f x anc then
    return .atom .none
  match ← tupleItems x with
  | none => hInvalid f x anc
  | some _ =>
    let x ← hRawPre E c x
    match ← tupleItems x with
    | none => raise (.py .typeError)
    | some l =>
      if l.length ≠ values.length then
        let v ← read x
        raise (mkErr f .validation anc v c!"length" [(c!"length", natStr values.length)])
      else
        let a ← alloc (.list [])
        let valid ← hTupLoop env rec ph ser anc a 0 values l true
        if valid then
          match ← listItems (.ref a) with
          | some ys =>
            let b ← alloc (.tuple ys)
            return .ref b
          | none => raise (.py .typeError)
        else
          let v ← read x
          let s ← read (.ref a)
          raise (.structural ⟨.validation, anc, [], s, v⟩)

/-- The key part of one iteration of the Map loop (map.py:196-204); `whole` is the map's value. -/
noncomputable def hMapKey (env : Env) (rec : HProc) (f : Field) (whole : HVal) (key : Option Field)
    (ph : Phase) (ser : Bool) (anc : List Str) (k : HVal) : HM HVal :=
  match key with
  | some kf => do
    let vk ← read k
    let step ← lift (keyStep env vk)
    let vw ← read whole
    ⟨fun h => match (rec kf k ph ser (anc ++ [step])).run h with
      | (.ok k', h') => (.ok k', h')
      | (.error (.structural _), h') => (.error (mkErr f .validation anc vw c!"invalidkeys" []), h')
      | (.error e, h') => (.error e, h')⟩
  | none =>
    match k with
    | .atom (.str _) => return k
    | _ => do
      let v ← read whole
      raise (mkErr f .validation anc v c!"invalidkeys" [])

/-- The loop of Map.process (map.py:195-214); `a` is the dict under construction. -/
noncomputable def hMapLoop (env : Env) (rec : HProc) (f : Field) (whole : HVal) (key : Option Field)
    (value : Field) (ph : Phase) (ser : Bool) (anc : List Str) (a : Nat) :
    List (HVal × HVal) → Bool → HM Bool
  | [], valid => return valid
  | (k, x) :: r, valid => do
    let k' ← hMapKey env rec f whole key ph ser anc k
    let vk ← read k'
    let step ← lift (keyStep env vk)
    let y ← hCollect (hCall env rec value x ph ser (anc ++ [step]))
    if hashable vk then
      putItem a k' y.1
      hMapLoop env rec f whole key value ph ser anc a r (valid && y.2)
    else raise (.py .typeError)

/-- The required keys check of Map.process (map.py:216-221).  Required keys are declared as texts, so they are
taken as immutable objects. -/
noncomputable def hMapRequired (env : Env) (f : Field) (anc : List Str) (a : Nat) :
    List Val → Bool → HM Bool
  | [], valid => return valid
  | k :: r, valid =>
    if hashable k then do
      match ← getItem a (.atom k) with
      | some _ => hMapRequired env f anc a r valid
      | none =>
        match mkErr f .validation anc .none c!"required" [(c!"name", keyText env k)] with
        | .structural e =>
          putItem a (.atom k) (.atom e.toVal)
          hMapRequired env f anc a r false
        | e => raise e
    else raise (.py .typeError)

/-- Map.process (map.py:178-226). -/
noncomputable def hMap (env : Env) (E : HEnv) (rec : HProc) (c : Common) (key : Option Field)
    (value : Field) (required : List Val) (x : HVal) (ph : Phase) (ser : Bool) (anc : List Str) :
    HM HVal := do
  let f : Field := .map c key value required
  let anc := ancOr f anc
  if ← hIsNull f x anc then
    return .atom .none
  match ← dictItems x with
  | none => hInvalid f x anc
  | some _ =>
    let x ← hRawPre E c x
    match ← dictItems x with
    | none => raise (.py .attributeError)
    | some d =>
      let a ← alloc (.dict [])
      let valid ← hMapLoop env rec f x key value ph ser anc a d true
      let valid ← hMapRequired env f anc a required valid
      if valid then return .ref a
      else
        let v ← read x
        let s ← read (.ref a)
        raise (.structural ⟨.validation, anc, [], s, v⟩)

/-- The loop of Union.process (union.py:104-115): `none` when every member raised InvalidTypeError. -/
def hUnionLoop (env : Env) (rec : HProc) (x : HVal) (ph : Phase) (ser : Bool) (anc : List Str) :
    List Field → HM (Option HVal)
  | [] => return none
  | f :: fs => ⟨fun h =>
    match (hCall env rec f x ph ser anc).run h with
    | (.ok y, h') => (.ok (some y), h')
    | (.error (.structural e), h') =>
      if e.cls = .invalidType then (hUnionLoop env rec x ph ser anc fs).run h'
      else (.error (.structural e), h')
    | (.error e, h') => (.error e, h')⟩

/-- Union.process (union.py:98-115). -/
noncomputable def hUnion (env : Env) (rec : HProc) (c : Common) (fields : List Field) (x : HVal)
    (ph : Phase) (ser : Bool) (anc : List Str) : HM HVal := do
  let f : Field := .union c fields
  let anc := ancOr f anc
  if ← hIsNull f x anc then
    return .atom .none
  match ← hUnionLoop env rec x ph ser anc fields with
  | some y => return y
  | none => hInvalid f x anc

/-- `structure[name] = field.process(...)` with its exception handling (structure.py:424-437); `a` is the
dict under construction.  The result says whether the member was valid. -/
noncomputable def hStructField (env : Env) (rec : HProc) (ph : Phase) (ser : Bool) (anc : List Str)
    (a : Nat) (name : Str) (field : Field) (x : HVal) : HM Bool :=
  match resolve env field with
  | none => raise .undefinedField
  | some g =>
    match g.common? with
    | none => raise .undefinedField
    | some c =>
      match c.ignoreNull, x with
      | true, .atom .none => return true
      | _, _ => do
        let y ← hCollect (rec g x ph ser (anc ++ ['.' :: name]))
        putItem a (.atom (.str name)) y.1
        return y.2

/-- One iteration of the key loop (structure.py:407-437); `b` is the set of names not yet visited, `a` the
dict under construction, `src` the dict being processed. -/
noncomputable def hStructStep (env : Env) (E : HEnv) (rec : HProc) (f : Field) (src : Nat)
    (defn : List (Str × Field)) (ph : Phase) (ser part : Bool) (anc : List Str) (a b : Nat)
    (name : Str) : HM Bool :=
  match defn.lookup name with
  | none => raise (.py .keyError)
  | some field => do
    if ← setHas b (.atom (.str name)) then
      setRemove b (.atom (.str name))
      let x ← getItem src (.atom (.str name))
      hStructField env rec ph ser anc a name field (x.getD (.atom .none))
    else if part then return true
    else
      match (resolve env field).bind Field.common? with
      | none => raise (.py .attributeError)
      | some c =>
        if ph = .inbound ∧ !c.default.isNone then
          hStructField env rec ph ser anc a name field (E.dflt c)
        else if c.required then
          match mkErr f .validation anc .none c!"required" [(c!"name", name)] with
          | .structural e =>
            putItem a (.atom (.str name)) (.atom e.toVal)
            return false
          | e => raise e
        else return true

/-- The key loop. -/
noncomputable def hStructLoop (env : Env) (E : HEnv) (rec : HProc) (f : Field) (src : Nat)
    (defn : List (Str × Field)) (ph : Phase) (ser part : Bool) (anc : List Str) (a b : Nat) :
    List Str → Bool → HM Bool
  | [], valid => return valid
  | n :: r, valid => do
    let ok ← hStructStep env E rec f src defn ph ser part anc a b n
    hStructLoop env E rec f src defn ph ser part anc a b r (valid && ok)

/-- Unknown keys (structure.py:439-443). -/
noncomputable def hStructUnknown (env : Env) (f : Field) (anc : List Str) (a : Nat) :
    List HVal → Bool → HM Bool
  | [], valid => return valid
  | k :: r, _ => do
    let vk ← read k
    match mkErr f .validation anc .none c!"unknown" [(c!"name", keyText env vk)] with
    | .structural e =>
      putItem a k (.atom e.toVal)
      hStructUnknown env f anc a r false
    | e => raise e

/-- The names left over in the set at `b`. -/
def setItems (b : Nat) : HM (List HVal) := do
  match ← get b with
  | some (.set l) => return l
  | _ => raise (.py .typeError)

/-- Structure.process after the definition has been chosen (structure.py:397-448), for the dict at `src`.
The set of names, made earlier in the code (structure.py:377), is made here; nothing in between looks at it. -/
noncomputable def hStructBody (env : Env) (E : HEnv) (rec : HProc) (f : Field) (strict : Bool)
    (order : List Str) (defn : List (Str × Field)) (src : Nat) (ph : Phase) (ser part : Bool)
    (anc : List Str) : HM HVal := do
  match ← dictItems (.ref src) with
  | none => raise (.py .attributeError)
  | some d =>
    let b ← alloc (.set (d.map (·.1)))
    let a ← alloc (.dict [])
    let valid ← hStructLoop env E rec f src defn ph ser part anc a b order true
    let valid ← (if strict then do
      let left ← setItems b
      hStructUnknown env f anc a left valid
    else pure valid)
    if valid then return .ref a
    else
      let v ← read (.ref src)
      let s ← read (.ref a)
      raise (.structural ⟨.validation, anc, [], s, v⟩)

/-- The preprocessing step of Structure (structure.py:369-374). -/
noncomputable def hStructPre (E : HEnv) (f : Field) (c : Common) (x : HVal) (anc : List Str) : HM HVal :=
  match c.pre with
  | some n => ⟨fun h => match (E.pre n x).run h with
    | (.ok y, h') => (.ok y, h')
    | (.error _, h') => (hInvalid f x anc).run h'⟩
  | none => return x

/-- Structure.process for a plain structure (structure.py:359-448). -/
noncomputable def hStructure (env : Env) (E : HEnv) (rec : HProc) (c : Common)
    (defn : List (Str × Field)) (strict : Bool) (keyOrder : List Str) (part : Bool) (x : HVal)
    (ph : Phase) (ser : Bool) (anc : List Str) : HM HVal := do
  let f : Field := .structure c defn strict keyOrder
  let anc := ancOr f anc
  if ← hIsNull f x anc then
    return .atom .none
  match ← dictItems x with
  | none => hInvalid f x anc
  | some _ =>
    match ← hStructPre E f c x anc with
    | .ref src =>
      hStructBody env E rec f strict (if keyOrder.isEmpty then defn.map (·.1) else keyOrder) defn src
        ph ser part anc
    | .atom _ => raise (.py .attributeError)

/-- Structure.process for a polymorphic structure (structure.py:359-448). -/
noncomputable def hPoly (env : Env) (E : HEnv) (rec : HProc) (c : Common) (disc : Field)
    (variants : List (Val × List (Str × Field))) (strict : Bool) (keyOrder : List Str) (part : Bool)
    (x : HVal) (ph : Phase) (ser : Bool) (anc : List Str) : HM HVal := do
  let f : Field := .poly c disc variants strict keyOrder
  let anc := ancOr f anc
  if ← hIsNull f x anc then
    return .atom .none
  match ← dictItems x with
  | none => hInvalid f x anc
  | some _ =>
    match ← hStructPre E f c x anc with
    | .ref src =>
      let dname : Str := disc.name.getD []
      match (← getItem src (.atom (.str dname))).getD (.atom .none) with
      | .atom .none => raise (mkErr f .validation anc .none c!"required" [(c!"name", dname)])
      | raw =>
        let y ← rec disc raw ph ser (anc ++ ['.' :: dname])
        let id ← read y
        if !hashable id then raise (.py .typeError)
        else
          match variantGet variants id with
          | none => raise (mkErr f .validation anc id c!"unrecognized" [])
          | some defn =>
            if defn.isEmpty then raise (mkErr f .validation anc id c!"unrecognized" [])
            else if !keyOrder.isEmpty && id.truthy then raise (.py .typeError)
            else
              hStructBody env E rec f strict (if keyOrder.isEmpty then defn.map (·.1) else keyOrder)
                defn src ph ser part anc
    | .atom _ => raise (.py .attributeError)

/-- One call of `field.process(value, phase, serialized, ancestry)`, children processed by `rec`. -/
noncomputable def hStep (env : Env) (E : HEnv) (rec : HProc) : HProc := fun f x ph ser anc =>
  match f with
  | .leaf c k => hLeaf env E c k x ph ser anc
  | .sequence c item min max unique => hSequence env E rec c item min max unique x ph ser anc
  | .map c key value required => hMap env E rec c key value required x ph ser anc
  | .tuple c values => hTuple env E rec c values x ph ser anc
  | .union c fields => hUnion env rec c fields x ph ser anc
  | .structure c defn strict ko => hStructure env E rec c defn strict ko false x ph ser anc
  | .poly c disc variants strict ko => hPoly env E rec c disc variants strict ko false x ph ser anc
  | .undef _ => raise (.py .attributeError)

/-- `field.process(...)` on the heap, with `n` levels of call depth available. -/
noncomputable def hProcess (env : Env) (E : HEnv) : Nat → HProc
  | 0 => fun _ _ _ _ _ => raise (.py .recursionError)
  | n + 1 => hStep env E (hProcess env E n)

/-- `structure.process(value, ..., partial=True)` on the heap. -/
noncomputable def hProcessPartial (env : Env) (E : HEnv) (n : Nat) (f : Field) (x : HVal) (ph : Phase)
    (ser : Bool) (anc : List Str) : HM HVal :=
  match f with
  | .structure c defn strict ko => hStructure env E (hProcess env E n) c defn strict ko true x ph ser anc
  | .poly c disc variants strict ko =>
    hPoly env E (hProcess env E n) c disc variants strict ko true x ph ser anc
  | _ => raise (.py .typeError)

end Scheme
