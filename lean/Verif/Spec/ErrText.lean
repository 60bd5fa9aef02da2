import Verif.Model.ErrText
import Verif.Spec.Located

/-! What the text of an error lists. -/

namespace Scheme

mutual
/-- The errors without structure that a structure contains, at any depth, from left to right. -/
def leavesIn : Val → List Val
  | .list l => leavesL l
  | .tuple l => leavesL l
  | .dict d => leavesD d
  | _ => []
def leavesL : List Val → List Val
  | [] => []
  | x :: r => leavesOf x ++ leavesL r
def leavesD : List (Val × Val) → List Val
  | [] => []
  | (_, x) :: r => leavesOf x ++ leavesD r
/-- An error without structure is one; other values that are not errors have none. -/
def leavesOf : Val → List Val
  | .exc cls i es .none v => [.exc cls i es .none v]
  | .exc _ _ _ st _ => leavesIn st
  | _ => []
end

/-- The nodes an error's text is about: the error itself if it has entries, then what its structure contains. -/
def nodesOf (e : SErr) : List Val := (if e.errors = [] then [] else [e.toVal]) ++ leavesIn e.struct

/-- The entries of an error object. -/
def entriesOf : Val → List Val
  | .exc _ _ es _ _ => es
  | _ => []

/-- The location of an error object, as text. -/
def locationOf : Val → Str
  | .exc _ i _ _ _ => i.flatten
  | _ => []

/-- The value of an error object. -/
def valueOf : Val → Val
  | .exc _ _ _ _ v => v
  | _ => .none

/-- What is listed: nodes with one of their entries, in order. -/
def listed (e : SErr) : List (Val × Val) := (nodesOf e).flatMap fun n => (entriesOf n).map fun x => (n, x)

/-- `ItemOf st x`: `x` is directly in the structure. -/
inductive ItemOf : Val → Val → Prop
  | list {l x} : x ∈ l → ItemOf (.list l) x
  | tuple {l x} : x ∈ l → ItemOf (.tuple l) x
  | dict {d k x} : (k, x) ∈ d → ItemOf (.dict d) x

/-- `WithinErr st n`: `n` is reached from the structure by going into the structures of errors. -/
inductive WithinErr : Val → Val → Prop
  | here {st x} : ItemOf st x → WithinErr st x
  | deeper {st cls i es st' v n} : ItemOf st (.exc cls i es st' v) → st' ≠ .none → WithinErr st' n → WithinErr st n

/-- `%r` fills in the value: a tuple is taken apart. -/
inductive ValueText (w : ErrWorld) : Val → Str → Prop
  | one {x} : ValueText w (.tuple [x]) (w.repr x)
  | plain {v} : (∀ l, v ≠ .tuple l) → ValueText w v (w.repr v)

/-- The lines saying which field it was. -/
inductive FieldPart (f : ErrField) : Bool → List Str → Prop
  | shown {r} : f.repr = .ok r → FieldPart f true [c!"Field: " ++ r]
  | hidden : FieldPart f false []

/-- The lines saying which value it was. -/
inductive ValuePart (w : ErrWorld) : Bool → Val → List Str → Prop
  | shown {v t} : v ≠ .none → ValueText w v t → ValuePart w true v [c!"Value: " ++ t]
  | absent {b} : ValuePart w b .none []
  | hidden {v} : ValuePart w false v []

/-- `Paragraph w n x p`: the paragraph for the entry `x` of `n`. -/
inductive Paragraph (w : ErrWorld) (n x : Val) : Str → Prop
  | mk {f token title message flags fl vl} : w.field n = some f → x = errItem token title message →
      f.shows token = some flags → FieldPart f flags.1 fl → ValuePart w flags.2 (valueOf n) vl →
      Paragraph w n x (joinStr c!"\n"
        ((w.capitalize title ++ c!" error at " ++ locationOf n ++ c!": " ++ message) ::
          (fl ++ vl ++ tracebackLines (w.tracebacks n))))

/-- The error object has a field that knows its entries, each a token with title and message. -/
def Constructed (w : ErrWorld) (n : Val) : Prop :=
  ∃ f, w.field n = some f ∧ ∀ x ∈ entriesOf n, ∃ token title message, x = errItem token title message ∧ f.shows token ≠ none

/-- An error object with exactly one entry and no structure. -/
def OneEntry (n : Val) : Prop := ∃ cls i token title message v, n = .exc cls i [errItem token title message] .none v

/-- The field accepts no error object. -/
def NoErrorValues (env : Env) (ph : Phase) (ser : Bool) (g : Field) : Prop :=
  ∀ m w anc x, process env m g w ph ser anc = .ok x → x.isExc = false

/-- A field that is not meant to hold error objects. -/
def NotForErrors : Field → Prop
  | .leaf _ .any => False
  | .leaf _ .error => False
  | .leaf _ .object => False
  | .leaf _ (.enumeration vals _) => ∀ m ∈ vals, m.isExc = false
  | _ => True

/-- The text cannot be made of this node: the `repr` of its field raises `x`, or its value is a tuple that does not have
one element. -/
inductive Unshowable (w : ErrWorld) (n : Val) : PyErr → Prop
  | field {f token title message sv x} : w.field n = some f → errItem token title message ∈ entriesOf n →
      f.shows token = some (true, sv) → f.repr = .error x → Unshowable w n x
  | value {f token title message sf l} : w.field n = some f → errItem token title message ∈ entriesOf n →
      f.shows token = some (sf, true) → valueOf n = .tuple l → l.length ≠ 1 → Unshowable w n .typeError

/-- The lines of a text. -/
def lines (s : Str) : List Str := splitOn '\n' s

/-- The lines that start with an opening bracket. -/
def starts (s : Str) : List Str := (lines s).filter fun l => l.head? == some '['

/-- The first line of paragraph number `i`, counted from zero: numbers below ten have a leading zero. -/
def numbered (i : Nat) (first : Str) : Str := c!"[" ++ (if i < 9 then c!"0" else []) ++ natStr (i + 1) ++ c!"] " ++ first

/-- One paragraph for each listed entry, in order. -/
inductive Paragraphs (w : ErrWorld) : List (Val × Val) → List Str → Prop
  | nil : Paragraphs w [] []
  | cons {n x r p ps} : Paragraph w n x p → Paragraphs w r ps → Paragraphs w ((n, x) :: r) (p :: ps)

/-- The lines of a paragraph in the text: the first one is numbered, the others are indented. -/
def block (i : Nat) (p : Str) : List Str :=
  match lines p with
  | [] => []
  | l :: r => numbered i l :: r.map (c!"     " ++ ·)

/-- The lines of all paragraphs. -/
def blocks : Nat → List Str → List Str
  | _, [] => []
  | i, p :: r => block i p ++ blocks (i + 1) r

/-- `None` or something that has items. -/
def HasItems (st : Val) : Prop := st = .none ∨ (∃ l, st = .list l) ∨ (∃ l, st = .tuple l) ∨ ∃ d, st = .dict d

/-- The structures of an error and of the errors inside are containers. -/
def SoundErr (e : SErr) : Prop :=
  HasItems e.struct ∧ ∀ cls i es st v, WithinErr e.struct (.exc cls i es st v) → HasItems st

end Scheme
