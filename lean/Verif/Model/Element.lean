import Verif.Model.Edit

/-! Elements (scheme/element.py). -/

namespace Scheme

/-- What ElementMeta keeps of a schema (element.py:21-36): the attributes of a structure with their defaults, those of
each identity of a polymorphic structure together with the discriminator's name, or the one attribute of another
field. -/
inductive ElAttrs
  | plain (attrs : List (Val × Val))
  | poly (on : Str) (attrs : List (Val × Val))
  | value (name : Str) (default : Val)

/-- The attributes for a schema (element.py:24-36).  A field whose name is missing or empty is refused; a placeholder
is no field (simplification: only fields are given as schema). -/
def elAttrs (env : Env) (f : Field) : Except PyErr ElAttrs :=
  match f with
  | .structure .. => do
    match ← generateDefaults env f .none false with
    | .dict d => .ok (.plain d)
    | _ => .error .typeError
  | .poly _ disc .. => do
    match ← generateDefaults env f .none false with
    | .dict d => .ok (.poly (disc.name.getD []) d)
    | _ => .error .typeError
  | .undef _ => .error .typeError
  | f =>
    match f.name with
    | some s => if s.isEmpty then .error .valueError else .ok (.value s ((f.common?.map (·.default)).getD .none))
    | none => .error .valueError

/-- A class statement below Element: its base (`none`: Element; one base, simplification), and the attributes it sets
itself, if any.  Schemas are numbered objects. -/
structure ElDecl where
  base : Option Nat
  identity : Option Val := none
  schema : Option Nat := none
  keyAttr : Option (Option Str) := none

/-- The attributes of an element class, inherited ones included: `polymorphic_identity`, `schema`, `key_attr`,
`__polymorphic_on__`, the class on which `__polymorphic_impl__` is set, `__attrs__`. -/
structure ElCls where
  identity : Val
  schema : Option Nat
  keyAttr : Option Str
  polyOn : Option Str
  owner : Option Nat
  attrs : Option ElAttrs

/-- Element itself (element.py:68-70) -/
def elementCls : ElCls := ⟨.none, none, none, none, none, none⟩

/-- The classes by number, `__polymorphic_impl__` of each class (latest assignment first) and, for each schema, the
class whose methods are its instantiator and extractor (latest assignment first). -/
structure Elements where
  classes : List ElCls
  impls : List (Nat × Val × Nat)
  captured : List (Nat × Nat)

def Elements.init : Elements := ⟨[], [], []⟩

/-- The first base. -/
def Elements.base (st : Elements) : Option Nat → ElCls
  | some b => (st.classes[b]?).getD elementCls
  | none => elementCls

/-- The name `__polymorphic_on__` of a class with these attributes (element.py:21, 27). -/
def ElAttrs.on : ElAttrs → Option Str
  | .poly on _ => some on
  | _ => none

/-- The attributes of the class a statement creates, `j` being its number (element.py:8-39, and inheritance). -/
def elDerive (mk : Nat → Except PyErr ElAttrs) (b : ElCls) (j : Nat) (d : ElDecl) : Except PyErr ElCls :=
  let identity := d.identity.getD b.identity
  let schema := d.schema.or b.schema
  let keyAttr := d.keyAttr.getD b.keyAttr
  if identity.truthy then
    match b.polyOn with
    | some on =>
      if on.isEmpty then .error .valueError
      else if hashable identity then .ok ⟨identity, schema, keyAttr, some on, b.owner, b.attrs⟩
      else .error .typeError
    | none => .error .valueError
  else match schema with
    | none => .ok ⟨identity, none, keyAttr, b.polyOn, b.owner, b.attrs⟩
    | some s => do
      let attrs ← mk s
      return ⟨identity, some s, keyAttr, attrs.on, match attrs with | .poly .. => some j | _ => b.owner, some attrs⟩

/-- ElementMeta.__new__ (element.py:7-39) -/
def Elements.define (mk : Nat → Except PyErr ElAttrs) (st : Elements) (d : ElDecl) : Except PyErr Elements := do
  let j := st.classes.length
  let c ← elDerive mk (st.base d.base) j d
  if c.identity.truthy then
    return ⟨st.classes ++ [c], (c.owner.getD 0, c.identity, j) :: st.impls, st.captured⟩
  else
    match c.schema with
    | none => return ⟨st.classes ++ [c], st.impls, st.captured⟩
    | some s => return ⟨st.classes ++ [c], st.impls, (s, j) :: st.captured⟩

/-- Class statements one after another; a failing one ends the program. -/
def Elements.run (mk : Nat → Except PyErr ElAttrs) : Elements → List ElDecl → Except PyErr Elements
  | st, [] => .ok st
  | st, d :: r => do
    let st' ← st.define mk d
    st'.run mk r

/-- An instance: its class and its `__dict__`. -/
structure Elem where
  cls : Nat
  attrs : List (Str × Val)

/-- `for attr, default in defaults.items(): setattr(self, attr, params.get(attr, default))` (element.py:79-80) -/
def setAttrs (params : List (Str × Val)) : List (Val × Val) → Except PyErr (List (Str × Val))
  | [] => .ok []
  | (.str a, default) :: r => do
    let r' ← setAttrs params r
    return (a, (params.lookup a).getD default) :: r'
  | _ :: _ => .error .typeError

/-- Element.__init__ (element.py:72-80) called with keyword arguments; `self` cannot be one of them.  A class without
`__attrs__` raises AttributeError. -/
def ElCls.init (c : ElCls) (params : List (Str × Val)) : Except PyErr (List (Str × Val)) :=
  if (params.lookup c!"self").isSome then .error .typeError
  else match c.attrs, c.polyOn with
    | some (.poly _ variants), some on =>
      match params.lookup on with
      | none => .error .keyError
      | some id =>
        if hashable id then
          match dictGet variants id with
          | some (.dict d) => setAttrs params d
          | some _ => .error .attributeError
          | none => .error .keyError
        else .error .typeError
    | some (.plain d), _ => setAttrs params d
    | some (.value name default), _ => setAttrs params [(.str name, default)]
    | _, _ => .error .attributeError

/-- `**value`: TypeError for a key that is not text. -/
def keywords : List (Val × Val) → Except PyErr (List (Str × Val))
  | [] => .ok []
  | (.str k, v) :: r => do
    let r' ← keywords r
    return (k, v) :: r'
  | _ :: _ => .error .typeError

/-- `cls.__polymorphic_impl__[identity]` -/
def implAt (impls : List (Nat × Val × Nat)) (owner : Nat) (id : Val) : Option Nat :=
  (impls.find? fun e => e.1 == owner && pyEq id e.2.1).map (·.2.2)

/-- The class Element.instantiate calls (element.py:102-108). -/
def Elements.chosen (st : Elements) (cls : Nat) (c : ElCls) (d : List (Val × Val)) : Except PyErr Nat :=
  match c.polyOn with
  | none => .ok cls
  | some on =>
    match dictGet d (.str on) with
    | none => .error .keyError
    | some id =>
      if hashable id then .ok ((implAt st.impls (c.owner.getD 0) id).getD cls)
      else .error .typeError

/-- `setattr(instance, cls.key_attr, key)` -/
def setKey (keyAttr : Option Str) (key : Val) (attrs : List (Str × Val)) : List (Str × Val) :=
  match keyAttr with
  | some k => if key.isNone || k.isEmpty then attrs else keySet k key attrs
  | none => attrs

/-- Element.instantiate (element.py:98-116) for a structure -/
def Elements.instantiate (st : Elements) (cls : Nat) (d : List (Val × Val)) (key : Val) : Except PyErr Elem := do
  let c := (st.classes[cls]?).getD elementCls
  let j ← st.chosen cls c d
  let params ← keywords d
  let attrs ← ((st.classes[j]?).getD elementCls).init params
  return ⟨j, setKey c.keyAttr key attrs⟩

/-- Element.instantiate (element.py:109-116) for a schema that is not a structure -/
def Elements.instantiateValue (st : Elements) (cls : Nat) (name : Str) (v key : Val) : Except PyErr Elem := do
  let c := (st.classes[cls]?).getD elementCls
  let attrs ← c.init [(name, v)]
  return ⟨cls, setKey c.keyAttr key attrs⟩

/-- Element.extract (element.py:91-96): `__dict__` for a structure, otherwise the attribute. -/
def Elem.extract (e : Elem) : List (Val × Val) := e.attrs.map fun a => (.str a.1, a.2)
def Elem.extractValue (e : Elem) (name : Str) : Except PyErr Val :=
  match e.attrs.lookup name with
  | some v => .ok v
  | none => .error .attributeError

/-- The class whose `instantiate` is the schema's instantiator. -/
def Elements.capturing (st : Elements) (schema : Nat) : Option Nat := st.captured.lookup schema

end Scheme
