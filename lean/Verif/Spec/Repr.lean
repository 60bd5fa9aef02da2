import Verif.Model.Repr
import Verif.Spec.Doc
import Verif.Lemmas.Same

/-! What `repr(field)` says, and when it can be made. -/

namespace Scheme

/-- The keys that `repr(field)` may show. -/
inductive RKey
  | name | multiple | extended | item | key | value | values | fields | members | enumeration | surrogates | segments
  | minimum | maximum | utc | minLength | maxLength | strip | unique | requiredKeys | polymorphicOn | strict | keyOrder
  | constant | default | nonnull | required | ignoreNull | title
  deriving DecidableEq

def RKey.text : RKey → Str
  | .name => c!"name" | .multiple => c!"multiple" | .extended => c!"extended" | .item => c!"item" | .key => c!"key"
  | .value => c!"value" | .values => c!"values" | .fields => c!"fields" | .members => c!"structure"
  | .enumeration => c!"enumeration" | .surrogates => c!"valid_surrogates" | .segments => c!"segments"
  | .minimum => c!"minimum" | .maximum => c!"maximum" | .utc => c!"utc" | .minLength => c!"min_length"
  | .maxLength => c!"max_length" | .strip => c!"strip" | .unique => c!"unique" | .requiredKeys => c!"required_keys"
  | .polymorphicOn => c!"polymorphic_on" | .strict => c!"strict" | .keyOrder => c!"key_order"
  | .constant => c!"constant" | .default => c!"default" | .nonnull => c!"nonnull" | .required => c!"required"
  | .ignoreNull => c!"ignore_null" | .title => c!"title"

/-- The keys of a subclass, in the order in which they are shown. -/
def subclassKeys : List RKey := [.multiple, .extended, .item, .key, .value, .values, .fields, .members, .enumeration,
  .surrogates, .segments, .minimum, .maximum, .utc, .minLength, .maxLength, .strip, .unique, .requiredKeys,
  .polymorphicOn, .strict, .keyOrder]

/-- All keys, in the order in which they are shown. -/
def RKey.all : List RKey :=
  .name :: (subclassKeys ++ [.constant, .default, .nonnull, .required, .ignoreNull, .title])

/-- What is shown for a key: a value; a value that is also the argument list of `%`; values in brackets; values sorted
first; a flag; another object. -/
inductive RContent
  | val (v : Val)
  | arg (v : Val)
  | each (vs : List Val)
  | sorted (vs : List Val)
  | flag (b : Bool)
  | part (i : Nat)

/-- `when p x` is `x` if `p` holds -/
def whenTrue {α : Type} (p : Bool) (x : α) : Option α := if p then some x else none

/-- What a field shows for a key, if it shows it. -/
def shownAt (padYear : Bool) (c : Common) (k : RKind) : RKey → Option RContent
  | .name => match c.name with
    | some s => whenTrue (!s.isEmpty) (.val (.str s))
    | none => none
  | .constant => whenTrue c.constant.truthy (.flag true)
  | .default => whenTrue (!c.default.isNone) (.arg c.default)
  | .nonnull => whenTrue c.nonnull (.flag true)
  | .required => whenTrue c.required (.flag true)
  | .ignoreNull => whenTrue c.ignoreNull (.flag true)
  | .title => whenTrue c.title.truthy (.arg c.title)
  | .multiple => match k with
    | .leaf (.email _ _ m _) => whenTrue m (.flag true)
    | _ => none
  | .extended => match k with
    | .leaf (.email _ _ _ e) => whenTrue e (.flag true)
    | _ => none
  | .item => match k with
    | .sequence i _ _ _ => some (.part i)
    | _ => none
  | .key => match k with
    | .map key _ _ => key.map .part
    | _ => none
  | .value => match k with
    | .map _ v _ => some (.part v)
    | _ => none
  | .values => match k with
    | .tuple b => some (.part b)
    | _ => none
  | .fields => match k with
    | .union b => some (.part b)
    | _ => none
  | .members => match k with
    | .structure b _ _ _ => some (.part b)
    | _ => none
  | .enumeration => match k with
    | .leaf (.enumeration vs _) => some (.each vs)
    | _ => none
  | .surrogates => match k with
    | .leaf (.surrogate vs) => whenTrue (!vs.isEmpty) (.sorted (vs.map .str))
    | _ => none
  | .segments => match k with
    | .leaf (.token s) => s.map fun i => .val (.int i)
    | _ => none
  | .minimum => match k with
    | .leaf (.date a _) => a.map fun d => .val (.str (dateStr padYear d))
    | .leaf (.datetime a _ _) => a.map fun d => .val (.str (dateTimeStr padYear d))
    | .leaf (.decimal a _) => a.map fun d => .val (.decimal d)
    | .leaf (.float a _) => a.map fun d => .val (.float d)
    | .leaf (.integer a _) => a.map fun d => .val (.int d)
    | .leaf (.time a _) => a.map fun d => .val (.time d)
    | _ => none
  | .maximum => match k with
    | .leaf (.date _ b) => b.map fun d => .val (.str (dateStr padYear d))
    | .leaf (.datetime _ b _) => b.map fun d => .val (.str (dateTimeStr padYear d))
    | .leaf (.decimal _ b) => b.map fun d => .val (.decimal d)
    | .leaf (.float _ b) => b.map fun d => .val (.float d)
    | .leaf (.integer _ b) => b.map fun d => .val (.int d)
    | .leaf (.time _ b) => b.map fun d => .val (.time d)
    | _ => none
  | .utc => match k with
    | .leaf (.datetime _ _ u) => whenTrue u (.flag true)
    | _ => none
  | .minLength => match k with
    | .leaf (.binary a _) => a.map fun n => .val (.int n)
    | .leaf (.email a _ _ _) => a.map fun n => .val (.int n)
    | .leaf (.text _ a _ _) => a.map fun n => .val (.int n)
    | .sequence _ a _ _ => a.map fun n => .val (.int n)
    | _ => none
  | .maxLength => match k with
    | .leaf (.binary _ b) => b.map fun n => .val (.int n)
    | .leaf (.email _ b _ _) => b.map fun n => .val (.int n)
    | .leaf (.text _ _ b _) => b.map fun n => .val (.int n)
    | .sequence _ _ b _ => b.map fun n => .val (.int n)
    | _ => none
  | .strip => match k with
    | .leaf (.email ..) => some (.flag false)
    | .leaf (.text _ _ _ s) => whenTrue (!s) (.flag false)
    | _ => none
  | .unique => match k with
    | .sequence _ _ _ u => whenTrue u (.flag true)
    | _ => none
  | .requiredKeys => match k with
    | .map _ _ r => whenTrue (!r.isEmpty) (.sorted r)
    | _ => none
  | .polymorphicOn => match k with
    | .structure _ d _ _ => d.map fun o => .val (match o with
      | some s => .str s
      | none => .none)
    | _ => none
  | .strict => match k with
    | .structure _ _ s _ => whenTrue (!s) (.flag false)
    | _ => none
  | .keyOrder => match k with
    | .structure _ _ _ o => whenTrue (!o.isEmpty) (.val (.list (o.map .str)))
    | _ => none

/-- The text of what is shown for a key; `R` gives the texts of other objects. -/
inductive Renders (w : RWorld) (R : Nat → Str → Prop) : RContent → Str → Prop
  | val (v : Val) : Renders w R (.val v) (w.repr v)
  | arg (v : Val) : (∀ l, v ≠ .tuple l) → Renders w R (.arg v) (w.repr v)
  /-- a tuple of one element is shown as the element -/
  | single (x : Val) : Renders w R (.arg (.tuple [x])) (w.repr x)
  | each (vs : List Val) : Renders w R (.each vs) (c!"[" ++ joinStr c!", " (vs.map w.repr) ++ c!"]")
  | sorted (vs s : List Val) : s.Perm vs → Ascending s → Renders w R (.sorted vs) (w.repr (.list s))
  | yes : Renders w R (.flag true) c!"True"
  | no : Renders w R (.flag false) c!"False"
  | part (i : Nat) (t : Str) : R i t → Renders w R (.part i) t

/-- The text of an object, given the texts of the objects it refers to. -/
inductive DepictsCell (w : RWorld) (R : Nat → Str → Prop) : RCell → Str → Prop
  | field (cls : Str) (c : Common) (k : RKind) (ts : List (RKey × Str)) :
      ts.map (·.1) = RKey.all.filter (fun key => (shownAt w.padYear c k key).isSome) →
      (∀ e ∈ ts, ∃ ct, shownAt w.padYear c k e.1 = some ct ∧ Renders w R ct e.2) →
      DepictsCell w R (.field cls c k) (cls ++ c!"(" ++ joinStr c!", " (ts.map fun e => e.1.text ++ c!"=" ++ e.2) ++ c!")")
  | tuple (items : List Nat) (ts : List Str) : All2 R items ts → items.length ≠ 1 →
      DepictsCell w R (.tuple items) (c!"(" ++ joinStr c!", " ts ++ c!")")
  | tuple1 (i : Nat) (t : Str) : R i t → DepictsCell w R (.tuple [i]) (c!"(" ++ t ++ c!",)")
  | dict (entries : List (Val × Nat)) (ts : List Str) : All2 (fun e t => R e.2 t) entries ts →
      DepictsCell w R (.dict entries)
        (c!"{" ++ joinStr c!", " ((entries.zip ts).map fun e => w.repr e.1.1 ++ c!": " ++ e.2) ++ c!"}")

/-- The addresses in progress while the parts of an object are shown. -/
def inProgress (w : RWorld) (o : List Nat) (i : Nat) : List Nat :=
  match w.cell i with
  | .tuple _ => i :: o
  | .dict _ => i :: o
  | _ => o

/-- What cannot be shown: a tuple of other than one element as the argument of `%`, and values that cannot be sorted. -/
inductive CannotShow : RContent → Prop
  | arg (l : List Val) : l.length ≠ 1 → CannotShow (.arg (.tuple l))
  | sorted (vs : List Val) : ¬ Fmt.Sortable vs → CannotShow (.sorted vs)

/-- A field that shows something that cannot be shown. -/
def UnshowableField (w : RWorld) (i : Nat) : Prop :=
  ∃ cls c k key ct, w.cell i = .field cls c k ∧ shownAt w.padYear c k key = some ct ∧ CannotShow ct

/-- One object shows another. -/
inductive ShowsPart (w : RWorld) (i : Nat) : Nat → Prop
  | field (cls : Str) (c : Common) (k : RKind) (key : RKey) (j : Nat) : w.cell i = .field cls c k →
      shownAt w.padYear c k key = some (.part j) → ShowsPart w i j
  | tuple (items : List Nat) (j : Nat) : w.cell i = .tuple items → j ∈ items → ShowsPart w i j
  | dict (entries : List (Val × Nat)) (key : Val) (j : Nat) : w.cell i = .dict entries → (key, j) ∈ entries →
      ShowsPart w i j

/-- The objects shown by an object, directly or not, itself included. -/
inductive ShownBy (w : RWorld) (i : Nat) : Nat → Prop
  | self : ShownBy w i i
  | step (j k : Nat) : ShownBy w i j → ShowsPart w j k → ShownBy w i k

/-- One field shows another with no tuple or dict between them: as its item, key or value. -/
def ShowsDirectly (w : RWorld) (i j : Nat) : Prop :=
  ShowsPart w i j ∧ (∃ cls c k, w.cell i = .field cls c k) ∧ ∃ cls c k, w.cell j = .field cls c k

/-- One field shows another through sequences and maps only. -/
inductive DirectChain (w : RWorld) : Nat → Nat → Prop
  | one (i j : Nat) : ShowsDirectly w i j → DirectChain w i j
  | more (i j k : Nat) : DirectChain w i j → ShowsDirectly w j k → DirectChain w i k

/-- What may follow the text of an object: nothing, or what separates or closes. -/
def Closes (r : Str) : Prop := r = [] ∨ ∃ a s, r = a :: s ∧ a ∈ [',', ')', ']', '}', ':']

/-- What is assumed of `repr` for texts to be told apart: the text of a value can be told from what follows, classes have
identifiers as names, and placeholders are shown in angle brackets. -/
structure SelfDelimiting (w : RWorld) : Prop where
  value (v v' : Val) (r r' : Str) : Closes r → Closes r' → w.repr v ++ r = w.repr v' ++ r' → w.repr v = w.repr v'
  start (v : Val) : ∃ a s, w.repr v = a :: s ∧ a ∉ [',', ')', ']', '}', ':', '.']
  cls (i : Nat) (cls : Str) (c : Common) (k : RKind) : w.cell i = .field cls c k →
    (∃ a s, cls = a :: s ∧ a ∉ ['<', '(', '{', ',', ')', ']', '}', ':', '.']) ∧ '(' ∉ cls
  placeholder (i : Nat) : ∃ s, w.placeholder i = '<' :: (s ++ ['>']) ∧ '>' ∉ s

end Scheme
