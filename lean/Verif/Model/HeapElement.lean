import Verif.Model.HeapExtract
import Verif.Model.ElementIO

/-! Elements (scheme/element.py) as they act on Python's memory: an instance is known by the address of its `__dict__`,
whose values are the objects it was given or the defaults its class holds.

Simplification: the constants of fields have no parts. -/

namespace Scheme

open HM

/-- `__attrs__` (element.py:24-36) on the heap: the default of each attribute is an object. -/
inductive HElAttrs
  | plain (attrs : List (Str × HVal))
  | poly (on : Str) (variants : List (Val × List (Str × HVal)))
  | value (name : Str) (default : HVal)

/-- `field.default`, else `field.constant` (structure.py:534-543): the object itself, not a copy. -/
def hDefaultOf (env : Env) (E : HEnv) (f : Field) : Except PyErr HVal :=
  match (resolve env f).bind (·.common?) with
  | none => .error .attributeError
  | some c => .ok (if c.default.isNone then .atom c.constant else E.dflt c)

/-- `_generate_default_values(structure, sparse=False)` (structure.py:534-543) -/
def hGenerateValues (env : Env) (E : HEnv) : List (Str × Field) → Except PyErr (List (Str × HVal))
  | [] => .ok []
  | (name, f) :: r => do
    let x ← hDefaultOf env E f
    let r' ← hGenerateValues env E r
    return (name, x) :: r'

/-- The loop over the variants (structure.py:266-269). -/
def hGenerateVariants (env : Env) (E : HEnv) : List (Val × List (Str × Field)) → Except PyErr (List (Val × List (Str × HVal)))
  | [] => .ok []
  | (i, defn) :: r => do
    let d ← hGenerateValues env E defn
    let r' ← hGenerateVariants env E r
    return (i, d) :: r'

/-- What ElementMeta keeps of a schema (element.py:24-36). -/
def hElAttrs (env : Env) (E : HEnv) (f : Field) : Except PyErr HElAttrs :=
  match f with
  | .structure _ defn _ _ => (hGenerateValues env E defn).map .plain
  | .poly _ disc variants _ _ => (hGenerateVariants env E variants).map (.poly (disc.name.getD []))
  | .undef _ => .error .typeError
  | f =>
    match f.name with
    | some s => if s.isEmpty then .error .valueError else .ok (.value s ((f.common?.map E.dflt).getD (.atom .none)))
    | none => .error .valueError

/-- The `__dict__` made by `for attr, default in defaults.items(): setattr(self, attr, params.get(attr, default))`
(element.py:79-80) -/
def hAttrCell (params attrs : List (Str × HVal)) : Cell :=
  .dict (attrs.map fun e => (.atom (.str e.1), (params.lookup e.1).getD e.2))

/-- Element.__init__ (element.py:72-80) of a class with these attributes (`none`: without `__attrs__`); the address of the
new `__dict__`. -/
noncomputable def hElInit (a : Option HElAttrs) (params : List (Str × HVal)) : HM Nat :=
  if (params.lookup c!"self").isSome then raise (.py .typeError)
  else match a with
    | none => raise (.py .attributeError)
    | some (.plain d) => alloc (hAttrCell params d)
    | some (.value name x) => alloc (hAttrCell params [(name, x)])
    | some (.poly on variants) =>
      match params.lookup on with
      | none => raise (.py .keyError)
      | some y => do
        let id ← read y
        if hashable id then
          match variants.find? fun e => pyEq id e.1 with
          | some e => alloc (hAttrCell params e.2)
          | none => raise (.py .keyError)
        else raise (.py .typeError)

/-- `**value`: TypeError for a key that is not text. -/
def hKeywords : List (HVal × HVal) → Except Exn (List (Str × HVal))
  | [] => .ok []
  | (.atom (.str k), x) :: r => do
    let r' ← hKeywords r
    return (k, x) :: r'
  | _ :: _ => .error (.py .typeError)

/-- The class Element.instantiate calls (element.py:102-108). -/
noncomputable def hElChosen (st : Elements) (cls : Nat) (c : ElCls) (d : List (HVal × HVal)) : HM Nat :=
  match c.polyOn with
  | none => return cls
  | some on => do
    let y ← (⟨fun h => match hdictGet h d (.atom (.str on)) with
      | some y => (.ok y, h)
      | none => (.error (.py .keyError), h)⟩ : HM HVal)
    let id ← read y
    if hashable id then return (implAt st.impls (c.owner.getD 0) id).getD cls
    else raise (.py .typeError)

/-- Element.instantiate (element.py:98-116) for a structure, without a key; `H` gives `__attrs__` of each class.  The class and
the address of `__dict__` of the instance. -/
noncomputable def hElInstantiate (st : Elements) (H : Nat → Option HElAttrs) (cls : Nat) (d : List (HVal × HVal)) : HM (Nat × Nat) := do
  let j ← hElChosen st cls ((st.classes[cls]?).getD elementCls) d
  let params ← lift (hKeywords d)
  let a ← hElInit (H j) params
  return (j, a)

/-- `schema.instantiate(value)` (element.py:124) for a value that is not None. -/
noncomputable def hElMake (env : Env) (O : HOuter) (n : Nat) (st : Elements) (H : Nat → Option HElAttrs) (cls : Nat) (schema : Field)
    (y : HVal) : HM (Option (Nat × Nat)) := do
  let z ← hInstBody env (hInstantiate env O n) schema y
  match schema with
  | .structure .. | .poly .. =>
    match ← dictItems z with
    | some d => do
      let e ← hElInstantiate st H cls d
      return some e
    | none => raise (.py .typeError)
  | f => do
    let a ← hElInit (H cls) [(f.name.getD [], z)]
    return some (cls, a)

/-- Element.unserialize without a format (element.py:122-124); `cls` is the class that captured the schema. -/
noncomputable def hElUnserialize (env : Env) (E : HEnv) (O : HOuter) (n : Nat) (st : Elements) (H : Nat → Option HElAttrs) (cls : Nat)
    (schema : Field) (x : HVal) : HM (Option (Nat × Nat)) := do
  let y ← hProcess env E n schema x .inbound true []
  match y with
  | .atom .none => return none
  | y => hElMake env O n st H cls schema y

/-- `schema.extract(self)` (element.py:120) for the instance with `__dict__` at `a`; Element.extract (element.py:91-96) hands out
`__dict__` itself, or the attribute. -/
noncomputable def hElExtract (env : Env) (o : Outer) (O : HOuter) (n : Nat) (schema : Field) (a : Nat) : HM HVal :=
  match schema with
  | .structure .. | .poly .. => hExtractBody env O true (hExtract env o O true [] n) schema (.ref a)
  | f => do
    match ← getItem a (.atom (.str (f.name.getD []))) with
    | none => raise .cannotExtract
    | some y => hUnlessNone y (hExtractBody env O true (hExtract env o O true [] n) f y)

/-- Element.serialize without a format (element.py:118-120) -/
noncomputable def hElSerialize (env : Env) (E : HEnv) (o : Outer) (O : HOuter) (n : Nat) (schema : Field) (a : Nat) : HM HVal := do
  let y ← hElExtract env o O n schema a
  hProcess env E n schema y .outbound true []

end Scheme
