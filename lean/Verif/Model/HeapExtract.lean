import Verif.Model.Heap
import Verif.Model.Interpolate

/-! `extract`, `instantiate` and `interpolate` as they act on Python's memory.

`Verif.Model.Extract` and `Verif.Model.Interpolate` compute with values; here the same code is modelled once more
as operations on the heap of `Verif.Model.Heap`.

Simplifications: the items of a list, tuple or dict are read when a loop over it begins, so that what a user's
function does to the very container being traversed is not seen by the loop. -/

namespace Scheme

open HM

/-- The user's functions, as code working on the heap. -/
structure HOuter where
  /-- extractors, called with the field and the subject -/
  ext : Nat → Field → HVal → HM HVal
  /-- instantiators, called with the field, the value and the key -/
  inst : Nat → Field → HVal → HVal → HM HVal
  /-- `getattr(subject, name)` for subjects that are not dicts -/
  getattr : HVal → HVal → HM HVal

/-- `try: ... except E: pass`, for a call whose result is used only if there is one. -/
def hSkip (skips : Exn → Bool) (m : HM HVal) : HM (Option HVal) := ⟨fun h =>
  match m.run h with
  | (.ok y, h') => (.ok (some y), h')
  | (.error e, h') => if skips e then (.ok none, h') else (.error e, h')⟩

/-- `if subject is None: return None` -/
def hUnlessNone (x : HVal) (m : HM HVal) : HM HVal :=
  match x with
  | .atom .none => return .atom .none
  | _ => m

/-- `FieldExcludedError` -/
def isExcluded : Exn → Bool
  | .excluded => true
  | _ => false

/-- `UndefinedParameterError` -/
def isUndefinedParameter : Exn → Bool
  | .undefinedParameter => true
  | _ => false

/-- `.append(x)` for the list at `a`, unless the exception was passed over. -/
def appendSome (a : Nat) : Option HVal → HM Unit
  | some y => appendTo a y
  | none => pure ()

/-- `d[k] = x` for the dict at `a`, unless the exception was passed over. -/
noncomputable def putSome (a : Nat) (k : HVal) : Option HVal → HM Unit
  | some y => putItem a k y
  | none => pure ()

/-- A loop appending to the list at `a` (sequence.py:101-109, 129-137, 154-161). -/
def hAppendAll (call : HVal → HM (Option HVal)) (a : Nat) : List HVal → HM Unit
  | [] => return ()
  | x :: r => do
    appendSome a (← call x)
    hAppendAll call a r

/-- A loop over the fields of a tuple, appending to the list at `a` (tuple.py:86-94, 129-137, 152-159). -/
def hAppendSlots (fetch : Nat → HM HVal) (call : Field → HVal → HM (Option HVal)) (a : Nat) : Nat → List Field → HM Unit
  | _, [] => return ()
  | i, f :: fs => do
    let x ← fetch i
    appendSome a (← call f x)
    hAppendSlots fetch call a (i + 1) fs

/-- A loop over the entries of a dict, assigning to the dict at `a` (map.py:109-118, 139-148, 165-174,
structure.py:298-305). -/
noncomputable def hPutAll (call : HVal → HVal → HM (Option HVal)) (a : Nat) : List (HVal × HVal) → HM Unit
  | [] => return ()
  | (k, x) :: r => do
    putSome a k (← call k x)
    hPutAll call a r

/-- A loop over the members of a structure, assigning to the dict at `a` (structure.py:207-223, 322-336). -/
noncomputable def hPutMembers (fetch : Str → HM (Option HVal)) (call : Field → HVal → HM (Option HVal)) (a : Nat) :
    List (Str × Field) → HM Unit
  | [] => return ()
  | (name, f) :: r => do
    match ← fetch name with
    | none => hPutMembers fetch call a r
    | some x =>
      putSome a (.atom (.str name)) (← call f x)
      hPutMembers fetch call a r

/-- A recursive `extract` or `interpolate`. -/
abbrev HExt := Field → HVal → HM HVal

/-- `definition.extract(...)` or `definition.interpolate(...)` in a container, with its `except AttributeError`
clause. -/
def hChild (env : Env) (rec : HExt) (f : Field) (x : HVal) : HM HVal :=
  match resolve env f with
  | none => raise .undefinedField
  | some g => rec g x

/-- `[]`, filled by the loop. -/
def hNewList (loop : Nat → HM Unit) : HM HVal := do
  let a ← alloc (.list [])
  loop a
  return .ref a

/-- `tuple(...)` of a list filled by the loop (tuple.py:96, 139, 161). -/
def hNewTuple (loop : Nat → HM Unit) : HM HVal := do
  let a ← alloc (.list [])
  loop a
  match ← listItems (.ref a) with
  | some ys =>
    let b ← alloc (.tuple ys)
    return .ref b
  | none => raise (.py .typeError)

/-- `{}`, filled by the loop. -/
def hNewDict (loop : Nat → HM Unit) : HM HVal := do
  let a ← alloc (.dict [])
  loop a
  return .ref a

/-- Item `i` of these items (`subject[i]`). -/
def hItemAt (l : List HVal) (i : Nat) : HM HVal :=
  match l[i]? with
  | some x => return x
  | none => raise (.py .indexError)

/-! ### extract -/

/-- The extractor call of the containers (e.g. sequence.py:88-92): every exception becomes CannotExtractError. -/
def hExtractor (O : HOuter) (f : Field) (k : Option Nat) (x : HVal) : HM HVal :=
  match k with
  | none => return x
  | some k => ⟨fun h => match (O.ext k f x).run h with
    | (.ok y, h') => (.ok y, h')
    | (.error _, h') => (.error .cannotExtract, h')⟩

/-- The extractor call of each field type (union.py:60-61 does not convert exceptions). -/
def hApplyExtractor (O : HOuter) (f : Field) (x : HVal) : HM HVal :=
  match f with
  | .union c _ => match c.extor with
    | none => return x
    | some k => O.ext k f x
  | f => hExtractor O f (f.common?.bind (·.extor)) x

/-- The getter used by Structure.extract (structure.py:197-202), `getitem` (util.py:40-44) or `getattr`. -/
noncomputable def hGetMember (O : HOuter) (x name : HVal) : HM HVal := do
  match ← dictItems x with
  | some d => ⟨fun h => match hdictGet h d name with
    | some y => (.ok y, h)
    | none => (.error (.py .keyError), h)⟩
  | none => O.getattr x name

/-- The value of a member, if it is there and not None (structure.py:208-213). -/
noncomputable def hMemberValue (O : HOuter) (x name : HVal) : HM (Option HVal) := ⟨fun h =>
  match (hGetMember O x name).run h with
  | (.ok (.atom .none), h') => (.ok none, h')
  | (.ok y, h') => (.ok (some y), h')
  | (.error (.py .attributeError), h') => (.ok none, h')
  | (.error (.py .keyError), h') => (.ok none, h')
  | (.error e, h') => (.error e, h')⟩

/-- The member loop when the identity is falsy: `_get_definition` returns the mapping of identities
(structure.py:545-550), whose values are dicts without an `extract` method.  Identities are taken as immutable. -/
noncomputable def hExtractIdentities (O : HOuter) (x : HVal) : List (Val × List (Str × Field)) → HM Unit
  | [] => return ()
  | (i, _) :: r => do
    match ← hMemberValue O x (.atom i) with
    | none => hExtractIdentities O x r
    | some _ => raise (.py .attributeError)

/-- `raise CannotExtractError('extraction candidate must be a dict value')` unless there is a getter
(structure.py:197-202). -/
def hNeedsDict (strict : Bool) (x : HVal) : HM Unit := do
  match ← dictItems x with
  | some _ => return ()
  | none => if strict then raise .cannotExtract else return ()

/-- What `field.extract` does with a subject that is not None, once the extractor has been applied
(field.py:360, structure.py:197-225, map.py:103-120, sequence.py:94-111, tuple.py:81-96, union.py:63-74). -/
noncomputable def hExtractBody (env : Env) (O : HOuter) (strict : Bool) (rec : HExt) (f : Field) (x : HVal) : HM HVal :=
  match f with
  | .leaf .. => return x
  | .sequence _ item .. => do
    match ← tupleItems x with
    | none => raise .cannotExtract
    | some l => hNewList fun a => hAppendAll (fun y => hSkip isExcluded (hChild env rec item y)) a l
  | .tuple _ values => do
    match ← tupleItems x with
    | none => raise .cannotExtract
    | some l =>
      hNewTuple fun a => hAppendSlots (hItemAt l) (fun f y => hSkip isExcluded (hChild env rec f y)) a 0 values
  | .map _ _ value _ => do
    match ← dictItems x with
    | none => raise .cannotExtract
    | some d => hNewDict fun a => hPutAll (fun _ y => hSkip isExcluded (hChild env rec value y)) a d
  | .union _ fields => hExtractUnion fields
  | .structure _ defn _ _ => do
    hNeedsDict strict x
    hNewDict fun a => hPutMembers (fun name => hMemberValue O x (.atom (.str name)))
      (fun f y => hSkip isExcluded (hChild env rec f y)) a defn
  | .poly _ disc variants _ _ => do
    hNeedsDict strict x
    let y ← hGetMember O x (.atom (.str (disc.name.getD [])))
    let id ← read y
    if id.truthy then
      let defn ← lift (variantAt variants id)
      hNewDict fun a => hPutMembers (fun name => hMemberValue O x (.atom (.str name)))
        (fun f y => hSkip isExcluded (hChild env rec f y)) a defn
    else
      hNewDict fun _ => hExtractIdentities O x variants
  | .undef _ => raise (.py .attributeError)
where
  /-- The loop of Union.extract (union.py:63-74). -/
  hExtractUnion : List Field → HM HVal
    | [] => raise .cannotExtract
    | f :: fs => ⟨fun h =>
      match (hChild env rec f x).run h with
      | (.error .cannotExtract, h') => (hExtractUnion fs).run h'
      | r => r⟩

/-- One call of `field.extract(subject, strict, **params)`. -/
noncomputable def hExtractStep (env : Env) (o : Outer) (O : HOuter) (strict : Bool) (params : Params) (rec : HExt) : HExt := fun f x =>
  match f with
  | .undef _ => raise (.py .attributeError)
  | f =>
    if excluded o f params then raise .excluded
    else
      hUnlessNone x do
        let y ← hApplyExtractor O f x
        hExtractBody env O strict rec f y

/-- `field.extract(subject, strict, **params)` on the heap, with `n` levels of call depth. -/
noncomputable def hExtract (env : Env) (o : Outer) (O : HOuter) (strict : Bool) (params : Params) : Nat → HExt
  | 0 => fun _ _ => raise (.py .recursionError)
  | n + 1 => hExtractStep env o O strict params (hExtract env o O strict params n)

/-! ### instantiate -/

/-- A recursive `instantiate(value, key)`; `none` when no key is passed. -/
abbrev HInst := Field → HVal → Option HVal → HM HVal

/-- `definition.instantiate(...)` in a container. -/
def hInstChild (env : Env) (rec : HInst) (f : Field) (x : HVal) (key : Option HVal) : HM HVal :=
  match resolve env f with
  | none => raise .undefinedField
  | some g => rec g x key

/-- `for v in value` (sequence.py:130). -/
def hIterate (x : HVal) : HM (List HVal) :=
  match x with
  | .ref a => do
    match ← get a with
    | some (.list l) => return l
    | some (.tuple l) => return l
    | some (.dict d) => return d.map (·.1)
    | _ => raise (.py .typeError)
  | .atom (.str s) => return s.map fun ch => .atom (.str [ch])
  | .atom (.bytes b) => return b.map fun y => .atom (.int y.val)
  | .atom _ => raise (.py .typeError)

/-- `value[i]` (tuple.py:132). -/
noncomputable def hIndexAt (x : HVal) (i : Nat) : HM HVal :=
  match x with
  | .ref a => do
    match ← get a with
    | some (.list l) => hItemAt l i
    | some (.tuple l) => hItemAt l i
    | some (.dict d) => ⟨fun h => match hdictGet h d (.atom (.int i)) with
      | some y => (.ok y, h)
      | none => (.error (.py .keyError), h)⟩
    | _ => raise (.py .typeError)
  | .atom (.str s) => hItemAt (s.map fun ch => .atom (.str [ch])) i
  | .atom (.bytes b) => hItemAt (b.map fun y => .atom (.int y.val)) i
  | .atom _ => raise (.py .typeError)

/-- Field.instantiate (field.py:390-406) -/
def hInstOwn (O : HOuter) (f : Field) (x : HVal) (key : Option HVal) : HM HVal :=
  match f.common?.bind (·.instor), x with
  | some _, .atom .none => return x
  | some k, x => O.inst k f x (key.getD (.atom .none))
  | none, x => return x

/-- `params[k] = definition[k].instantiate(v, k)` (structure.py:298-305). -/
noncomputable def hInstMember (env : Env) (rec : HInst) (defn : List (Str × Field)) (k x : HVal) : HM (Option HVal) := do
  let vk ← read k
  let f ← lift (fieldAt defn vk)
  let y ← hInstChild env rec f x (some k)
  return some y

/-- The same when the identity is falsy: `definition` maps identities to dicts, which have no `instantiate`
method. -/
noncomputable def hInstIdentity (variants : List (Val × List (Str × Field))) (k : HVal) : HM (Option HVal) := do
  let vk ← read k
  match variantGet variants vk with
  | some _ => raise (.py .attributeError)
  | none => raise (.py .keyError)

/-- The children part of `field.instantiate`, for a value that is not None (structure.py:291-305,
map.py:134-148, sequence.py:125-137, tuple.py:125-137). -/
noncomputable def hInstBody (env : Env) (rec : HInst) (f : Field) (x : HVal) : HM HVal :=
  match f with
  | .leaf .. => return x
  | .sequence _ item .. => do
    let l ← hIterate x
    hNewList fun a => hAppendAll (fun y => do return some (← hInstChild env rec item y none)) a l
  | .map _ _ value _ => do
    match ← dictItems x with
    | some d => hNewDict fun a => hPutAll (fun k y => do return some (← hInstChild env rec value y (some k))) a d
    | none => raise (.py .attributeError)
  | .tuple _ values =>
    hNewTuple fun a => hAppendSlots (hIndexAt x) (fun f y => do return some (← hInstChild env rec f y none)) a 0 values
  | .union .. => raise (.py .notImplemented)
  | .structure _ defn _ _ => do
    match ← dictItems x with
    | some d => hNewDict fun a => hPutAll (hInstMember env rec defn) a d
    | none => raise (.py .attributeError)
  | .poly _ disc variants _ _ => do
    match ← dictItems x with
    | some d =>
      let y ← (⟨fun h => match hdictGet h d (.atom (.str (disc.name.getD []))) with
        | some y => (.ok y, h)
        | none => (.error (.py .keyError), h)⟩ : HM HVal)
      let id ← read y
      if id.truthy then
        let defn ← lift (variantAt variants id)
        hNewDict fun a => hPutAll (hInstMember env rec defn) a d
      else hNewDict fun a => hPutAll (fun k _ => hInstIdentity variants k) a d
    | none => raise (.py .typeError)
  | .undef _ => raise (.py .attributeError)

/-- One call of `field.instantiate(value, key)`. -/
noncomputable def hInstStep (env : Env) (O : HOuter) (rec : HInst) : HInst := fun f x key =>
  match f with
  | .undef _ => raise (.py .attributeError)
  | .union .. => match key with
    | some _ => raise (.py .typeError)
    | none => raise (.py .notImplemented)
  | f =>
    hUnlessNone x do
      let y ← hInstBody env rec f x
      hInstOwn O f y key

/-- `field.instantiate(value, key)` on the heap, with `n` levels of call depth. -/
noncomputable def hInstantiate (env : Env) (O : HOuter) : Nat → HInst
  | 0 => fun _ _ _ => raise (.py .recursionError)
  | n + 1 => hInstStep env O (hInstantiate env O n)

/-! ### interpolate -/

/-- The template engine together with the parameters of the call, as code working on the heap. -/
structure HTemplates where
  evaluate : Str → HM HVal
  render : Str → HM HVal
  surrogate : HVal → HM HVal

/-- interpolate_parameters (interpolation.py:60-89) -/
def hInterpolateParams (env : Env) (T : HTemplates) (simple : Bool) (x : HVal) : HM HVal :=
  match x with
  | .atom (.str s) =>
    if s.isEmpty then return .atom (.str [])
    else if !simple then T.render s
    else match variableExpr env.u s with
      | some e => T.evaluate (strip env.u e)
      | none => return x
  | _ => raise (.py .valueError)

/-- A conversion of what the object holds, any failure being a ValueError. -/
noncomputable def hConverted {α : Type} (wrap : α → Val) (conv : Val → Option α) (x : HVal) : HM HVal := do
  let v ← read x
  match conv v with
  | some y => return .atom (wrap y)
  | none => raise (.py .valueError)

/-- Whether the object is one of those for which the test holds, containers excluded. -/
def HVal.is (p : Val → Bool) : HVal → Bool
  | .atom v => p v
  | .ref _ => false

/-- A text is evaluated, anything else kept (sequence.py:145-146, tuple.py:145-146, map.py:156-157,
structure.py:313-314, union.py:82-83, fields/surrogate.py:39-40). -/
def hEvaluated (env : Env) (T : HTemplates) (x : HVal) : HM HVal :=
  if x.is Val.isStr then hInterpolateParams env T true x else return x

/-- `interpolate` of the leaf fields, for a subject that is not None (field.py:408-416, integer.py:38-44,
float.py:38-44, decimal.py:67-73, text.py:59-63, token.py:30-34, uuid.py:23-27, enumeration.py:46-54,
fields/surrogate.py:36-47). -/
noncomputable def hInterpolateLeaf (env : Env) (T : HTemplates) (k : Leaf) (x : HVal) : HM HVal :=
  match k with
  | .integer .. =>
    if x.is isNumber then hConverted .int (toInt env) x
    else do hConverted .int (toInt env) (← hInterpolateParams env T true x)
  | .float .. =>
    if x.is isNumber then hConverted .float (toFloat env) x
    else do hConverted .float (toFloat env) (← hInterpolateParams env T true x)
  | .decimal .. =>
    match x with
    | .atom (.decimal _) => return x
    | x => do hConverted .decimal (toDec env) (← hInterpolateParams env T true x)
  | .text .. => hInterpolateParams env T false x
  | .email .. => hInterpolateParams env T false x
  | .token _ => hInterpolateParams env T false x
  | .uuid => hInterpolateParams env T true x
  | .enumeration vals _ => do
    let v ← read x
    if pyIn v vals then return x
    else
      let y ← hInterpolateParams env T true x
      let w ← read y
      if pyIn w vals then return y else raise .cannotInterpolate
  | .surrogate _ => do
    let y ← hEvaluated env T x
    match y with
    | .atom (.surr s) => return .atom (.surr s)
    | y =>
      match ← dictItems y with
      | some _ => T.surrogate y
      | none => raise (.py .valueError)
  | k => if x.is (isEquivalent k) then return x else hInterpolateParams env T true x

/-- `subject[key]` in these entries, `none` for KeyError. -/
noncomputable def hEntryOf (d : List (HVal × HVal)) (key : Val) : HM (Option HVal) :=
  ⟨fun h => (.ok (hdictGet h d (.atom key)), h)⟩

/-- The member loop when the identity is falsy: the definition maps identities to dicts, which have no `interpolate`
method (structure.py:545-550).  Identities are taken as immutable. -/
noncomputable def hInterpolateIdentities (d : List (HVal × HVal)) : List (Val × List (Str × Field)) → HM Unit
  | [] => return ()
  | (i, _) :: r => do
    match ← hEntryOf d i with
    | none => hInterpolateIdentities d r
    | some _ => raise (.py .attributeError)

/-- `interpolate` of the fields with parts, once a text has been evaluated (sequence.py:148-163, tuple.py:148-161,
map.py:159-176, structure.py:316-338, union.py:85-96). -/
noncomputable def hInterpolateBody (env : Env) (rec : HExt) (f : Field) (x : HVal) : HM HVal :=
  match f with
  | .leaf .. => return x
  | .sequence _ item .. => do
    match ← tupleItems x with
    | none => raise .cannotInterpolate
    | some l => hNewList fun a => hAppendAll (fun y => do return some (← hChild env rec item y)) a l
  | .tuple _ values => do
    match ← tupleItems x with
    | none => raise .cannotInterpolate
    | some l => hNewTuple fun a => hAppendSlots (hItemAt l) (fun f y => do return some (← hChild env rec f y)) a 0 values
  | .map _ _ value _ => do
    match ← dictItems x with
    | none => raise .cannotInterpolate
    | some d => hNewDict fun a => hPutAll (fun _ y => hSkip isUndefinedParameter (hChild env rec value y)) a d
  | .union _ fields => lift ((interpolateUnion env fields).map .atom)
  | .structure _ defn _ _ => do
    match ← dictItems x with
    | none => raise .cannotInterpolate
    | some d => hNewDict fun a => hPutMembers (fun name => hEntryOf d (.str name)) (fun f y => hSkip isUndefinedParameter (hChild env rec f y)) a defn
  | .poly _ disc variants _ _ => do
    match ← dictItems x with
    | none => raise .cannotInterpolate
    | some d =>
      match ← hEntryOf d (.str (disc.name.getD [])) with
      | none => raise (.py .keyError)
      | some y =>
        let id ← read y
        if id.truthy then
          let defn ← lift (variantAt variants id)
          hNewDict fun a => hPutMembers (fun name => hEntryOf d (.str name)) (fun f y => hSkip isUndefinedParameter (hChild env rec f y)) a defn
        else
          hNewDict fun _ => hInterpolateIdentities d variants
  | .undef _ => raise (.py .attributeError)

/-- One call of `field.interpolate(subject, parameters, interpolator)`. -/
noncomputable def hInterpolateStep (env : Env) (T : HTemplates) (rec : HExt) : HExt := fun f x =>
  match f with
  | .undef _ => raise (.py .attributeError)
  | .leaf _ k => hUnlessNone x (hInterpolateLeaf env T k x)
  | f => hUnlessNone x do
    let y ← hEvaluated env T x
    hInterpolateBody env rec f y

/-- `field.interpolate(subject, parameters, interpolator)` on the heap, with `n` levels of call depth. -/
noncomputable def hInterpolate (env : Env) (T : HTemplates) : Nat → HExt
  | 0 => fun _ _ => raise (.py .recursionError)
  | n + 1 => hInterpolateStep env T (hInterpolate env T n)

end Scheme
