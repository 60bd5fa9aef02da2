import Verif.Model.Field

/-! `Undefined` placeholders and the fields that hold them (scheme/field.py:616-634). -/

namespace Scheme

/-- What a position of a holder contains: a placeholder that is still undefined, the field itself, or a clone
of it with the key as its name.  `F` is the type of field objects. -/
inductive Content (F : Type)
  | pending
  | field (f : F)
  | clone (f : F) (name : Str)

/-- Constructor arguments: a field or a placeholder. -/
inductive HArg (F : Type)
  | field (f : F)
  | undef (u : Nat)

/-- Sequence, Map, Tuple and Union hold their children by position, Structure by key (for a polymorphic one: by
identity and key; `names` gives the key of each position). -/
inductive Kind
  | positional
  | structure (names : List Str)

/-- A field with children. -/
structure Holder (F : Type) where
  kind : Kind
  content : List (Content F)

/-- All placeholders and holders.  `callbacks u` are the registered pairs of holder and position, in order
(field.py:626-634).  Simplification: cloning a field succeeds (see C53 for when it does not). -/
structure World (F : Type) where
  field : Nat → Option F
  callbacks : Nat → List (Nat × Nat)
  holders : List (Holder F)

/-- The content for one argument (sequence.py:45-49, map.py:45-49, tuple.py:37-43, union.py:32-38,
structure.py:561-573): a defined placeholder is replaced by its field at once. -/
def World.initial {F : Type} (w : World F) : HArg F → Content F
  | .field f => .field f
  | .undef u => match w.field u with
    | some f => .field f
    | none => .pending

/-- The registrations made for one argument. -/
def World.registers {F : Type} (w : World F) (u : Nat) : HArg F → Bool
  | .field _ => false
  | .undef u' => u' == u && (w.field u).isNone

/-- Positions registered with placeholder `u` by a constructor call. -/
def registered {F : Type} (w : World F) (u h : Nat) (i : Nat) : List (HArg F) → List (Nat × Nat)
  | [] => []
  | a :: r => (if w.registers u a then [(h, i)] else []) ++ registered w u h (i + 1) r

/-- Constructing a holder. -/
def World.create {F : Type} (w : World F) (k : Kind) (args : List (HArg F)) : World F :=
  { w with
    callbacks := fun u => w.callbacks u ++ registered w u w.holders.length 0 args
    holders := w.holders ++ [⟨k, args.map w.initial⟩] }

/-- `_define_undefined_field` of the holder (sequence.py:224-225, map.py:241-242, tuple.py:223-224,
union.py:140-141, structure.py:504-509). -/
def Holder.set {F : Type} (h : Holder F) (i : Nat) (f : F) : Holder F :=
  match h.kind with
  | .positional => { h with content := h.content.take i ++ [.field f] ++ h.content.drop (i + 1) }
  | .structure names => { h with content := h.content.take i ++ [.clone f (names.getD i [])] ++ h.content.drop (i + 1) }

/-- `Undefined.define(field)` (field.py:628-631): every registered callback is called. -/
def World.define {F : Type} (w : World F) (u : Nat) (f : F) : World F :=
  { w with
    field := fun v => if v = u then some f else w.field v
    holders := (w.callbacks u).foldl (fun hs c => hs.modify c.1 (·.set c.2 f)) w.holders }

/-- Operations. -/
inductive WOp (F : Type)
  | create (k : Kind) (args : List (HArg F))
  | define (u : Nat) (f : F)

def WOp.run {F : Type} (w : World F) : WOp F → World F
  | .create k args => w.create k args
  | .define u f => w.define u f

/-- A history of operations, starting from placeholders that may have been given a field on creation
(field.py:624-626). -/
def World.after {F : Type} (w : World F) (h : List (WOp F)) : World F := h.foldl WOp.run w

/-- The start: no holders and no callbacks. -/
def World.start {F : Type} (field : Nat → Option F) : World F := ⟨field, fun _ => [], []⟩

end Scheme
