import Verif.Model.Element
import Verif.Model.Extract
import Verif.Model.FieldFormat

/-! Element.serialize and Element.unserialize (scheme/element.py:118-124). -/

namespace Scheme

/-- An exception of plain Python among all exceptions. -/
def raising {α : Type} : Except PyErr α → Except Exn α
  | .ok a => .ok a
  | .error e => .error (.py e)

/-- `schema.extract(self)` (element.py:120): the extractor of a schema is Element.extract (element.py:38, 91-96), whose
exceptions become CannotExtractError (e.g. structure.py:191-195; a union, which does not convert them, included
for simplicity); then the children are extracted (Model/Extract.lean). -/
def Elem.extracted (env : Env) (o : Outer) (n : Nat) (schema : Field) (e : Elem) : Except Exn Val :=
  match schema with
  | .structure .. => extractBody env o true (_root_.Scheme.extract env o true [] n) schema (.dict e.extract)
  | .poly .. => extractBody env o true (_root_.Scheme.extract env o true [] n) schema (.dict e.extract)
  | f =>
    match e.extractValue (f.name.getD []) with
    | .ok v => if v.isNone then .ok v else extractBody env o true (_root_.Scheme.extract env o true [] n) f v
    | .error _ => .error .cannotExtract

/-- Element.serialize without a format (element.py:118-120); `n` levels of call depth. -/
def Elem.serialize (env : Env) (o : Outer) (n : Nat) (schema : Field) (e : Elem) : Except Exn Val := do
  let v ← e.extracted env o n schema
  process env n schema v .outbound true []

/-- Element.serialize with a format (element.py:118-120) -/
def Elem.serializeTo (env : Env) (o : Outer) (n : Nat) (schema : Field) (ops : FormatOps) (e : Elem) : Except Exn Str := do
  let v ← e.extracted env o n schema
  _root_.Scheme.serializeTo env n schema ops v []

/-- `schema.instantiate(value)` (element.py:124): None stays None; otherwise the children are instantiated, and then the
instantiator is called, the method of the class that captured the schema (element.py:37). -/
def Elements.instantiated (env : Env) (o : Outer) (n : Nat) (st : Elements) (cls : Nat) (schema : Field) (v : Val) :
    Except Exn (Option Elem) :=
  if v.isNone then .ok none
  else do
    let w ← instBody env (_root_.Scheme.instantiate env o n) schema v
    match schema, w with
    | .structure .., .dict d => (raising (st.instantiate cls d .none)).map some
    | .poly .., .dict d => (raising (st.instantiate cls d .none)).map some
    | f, w => (raising (st.instantiateValue cls (f.name.getD []) w .none)).map some

/-- Element.unserialize without a format (element.py:122-124); `cls` is the class that captured the schema. -/
def Elements.unserialize (env : Env) (o : Outer) (n : Nat) (st : Elements) (cls : Nat) (schema : Field) (v : Val) :
    Except Exn (Option Elem) := do
  let w ← process env n schema v .inbound true []
  st.instantiated env o n cls schema w

/-- Element.unserialize with a format (element.py:122-124) -/
def Elements.unserializeFrom (env : Env) (o : Outer) (n : Nat) (st : Elements) (cls : Nat) (schema : Field) (ops : FormatOps)
    (text : Str) : Except Exn (Option Elem) := do
  let w ← _root_.Scheme.unserializeFrom env n schema ops text []
  st.instantiated env o n cls schema w

end Scheme
