import Verif.Model.Describe
import Verif.Model.Formatter

/-! Documenting descriptions of fields as reStructuredText (scheme/doc/generator.py), and showing the directives this
consists of (scheme/doc/domain.py). -/

namespace Scheme

/-! ### the generator -/

/-- `directive` (doc/generator.py:10-31) and the texts that may stand in its content.  Arguments and parameters are kept
as the texts `render` makes of them. -/
inductive DocNode
  | block (directive : Str) (args : List Str) (params : List (Str × Str)) (content : List DocNode)
  | text (s : Str)

/-- What the generator is run with. -/
structure DocWorld where
  /-- `role` -/
  role : Option Str
  /-- `self._collate_fields(structure, excluded)`.  DocumentationGenerator has no such method (`none`); a subclass may. -/
  collate : Option (List (Val × Val) → List Str → Except Exn (List (Str × Val)))

/-- `v[k]` for a text `k`. -/
def docItem (v : Val) (k : Str) : Except Exn Val :=
  match v with
  | .dict d =>
    match dictGet d (.str k) with
    | some x => .ok x
    | none => .error (.py .keyError)
  | _ => .error (.py .typeError)

/-- `d.get(k)` -/
def docGet (d : List (Val × Val)) (k : Str) : Val := (dictGet d (.str k)).getD .none

/-- `text % v` where `text` ends in `%r`. -/
def percentR (env : Env) (text : Str) : Val → Except Exn Str
  | .tuple [v] => .ok (text ++ env.repr v)
  | .tuple _ => .error (.py .typeError)
  | v => .ok (text ++ env.repr v)

/-- `text % v` where `text` ends in `%d`.  Simplification: floats, which are truncated, are rejected like other values
that are no integers. -/
def percentD (text : Str) (v : Val) : Except Exn Str :=
  match numKey v with
  | some i => .ok (text ++ intStr i)
  | none => .error (.py .typeError)

/-- One constraint: nothing, or a text that may be impossible to make. -/
def docWhen (p : Bool) (r : Except Exn Str) : Except Exn (List Str) :=
  if p then r.map fun s => [s] else .ok []

/-- `if constraints: block.set('constraints', sep.join(constraints))` -/
def docConstraints (sep : Str) : List Str → List (Str × Str)
  | [] => []
  | l => [(c!"constraints", joinStr sep l)]

/-- `isinstance(v, date)`; a datetime is one. -/
def docIsDate : Val → Bool
  | .date _ => true
  | .datetime _ => true
  | _ => false
/-- `isinstance(v, datetime)` -/
def docIsDateTime : Val → Bool
  | .datetime _ => true
  | _ => false
/-- `isinstance(v, time)` -/
def docIsTime : Val → Bool
  | .time _ => true
  | _ => false
/-- `isinstance(v, numbers)` -/
def docIsNumber : Val → Bool
  | .int _ => true
  | .bool _ => true
  | .float _ => true
  | _ => false

/-- _describe_date and _describe_time (doc/generator.py:70-77, 181-188) -/
def docMoments (env : Env) (isA : Val → Bool) (d : List (Val × Val)) : Except Exn (List Str) := do
  let a ← docWhen (isA (docGet d c!"minimum")) (.ok (c!"min=" ++ env.str (docGet d c!"minimum")))
  let b ← docWhen (isA (docGet d c!"maximum")) (.ok (c!"max=" ++ env.str (docGet d c!"maximum")))
  return a ++ b

/-- _describe_datetime (doc/generator.py:79-88) -/
def docDateTime (env : Env) (d : List (Val × Val)) : Except Exn (List Str) := do
  let a ← docMoments env docIsDateTime d
  return a ++ if (docGet d c!"utc").truthy then [c!"utc=True"] else []

/-- _describe_decimal, _describe_float and _describe_integer (doc/generator.py:90-97, 103-119); the first calls both
limits `min`. -/
def docNumbers (env : Env) (high : Str) (d : List (Val × Val)) : Except Exn (List Str) := do
  let a ← docWhen (!(docGet d c!"minimum").isNone) (percentR env c!"min=" (docGet d c!"minimum"))
  let b ← docWhen (!(docGet d c!"maximum").isNone) (percentR env high (docGet d c!"maximum"))
  return a ++ b

/-- The texts among values; anything else is a TypeError of `str.join`. -/
def docTexts : List Val → Except Exn (List Str)
  | [] => .ok []
  | .str s :: r => do
    let l ← docTexts r
    return s :: l
  | _ :: _ => .error (.py .typeError)

/-- `sorted(v)`: see `comparable` for the values that can be ordered. -/
def docSorted (v : Val) : Except Exn (List Val) := do
  let l ← iterate v
  if comparable l then return (sortKeys (l.map fun x => (x, ()))).map (·.1)
  else .error (.py .typeError)

/-- _describe_enumeration (doc/generator.py:99-101) -/
def docEnumeration (field : Val) (d : List (Val × Val)) : Except Exn (List (Str × Str)) :=
  if (docGet d c!"constant").isNone then do
    let e ← docItem field c!"enumeration"
    let l ← docSorted e
    let l ← docTexts l
    return [(c!"values", joinStr c!" " l)]
  else .ok []

/-- `_document_field(name, field, role, key=key)` for a part. -/
abbrev DocRec := Str → Val → Val → Except Exn DocNode

/-- _describe_map (doc/generator.py:121-135), the required keys -/
def docRequired (env : Env) (d : List (Val × Val)) : Except Exn (List (Str × Str)) :=
  if (docGet d c!"required_keys").truthy then do
    let l ← docSorted (docGet d c!"required_keys")
    return [(c!"required_keys", env.repr (.list l))]
  else .ok []

/-- The type of the keys (doc/generator.py:125-129). -/
def docKey (d : List (Val × Val)) : Except Exn Val :=
  if (docGet d c!"key").truthy then docItem (docGet d c!"key") c!"fieldtype" else .ok (.str c!"text")

/-- _describe_map, the values (doc/generator.py:131-135) -/
def docValues (env : Env) (rec : DocRec) (key value : Val) : Except Exn (List (Str × Str) × List DocNode) :=
  match value with
  | .dict v =>
    if (docGet v c!"structural").truthy || (docGet v c!"description").truthy then do
      let b ← rec [] value key
      return ([], [b])
    else do
      let t ← docItem value c!"fieldtype"
      return ([(c!"subtype", strKey env key ++ c!": " ++ strKey env t)], [])
  | _ => .error (.py .attributeError)

/-- _describe_map (doc/generator.py:121-135) -/
def docMap (env : Env) (rec : DocRec) (field : Val) (d : List (Val × Val)) :
    Except Exn (List (Str × Str) × List DocNode) := do
  let ps ← docRequired env d
  let key ← docKey d
  let value ← docItem field c!"value"
  let r ← docValues env rec key value
  return (ps ++ r.1, r.2)

/-- _describe_sequence (doc/generator.py:137-149) -/
def docSequence (rec : DocRec) (d : List (Val × Val)) : Except Exn (List (Str × Str) × List DocNode) := do
  let a ← docWhen (!(docGet d c!"min_length").isNone) (percentD c!"min=" (docGet d c!"min_length"))
  let b ← docWhen (!(docGet d c!"max_length").isNone) (percentD c!"max=" (docGet d c!"max_length"))
  let block ← rec [] (docGet d c!"item") .none
  return ((if (docGet d c!"unique").truthy then [(c!"unique", [])] else []) ++ docConstraints c!", " (a ++ b), [block])

/-- The loop over members (doc/generator.py:162, 165-166). -/
def docMembers (rec : DocRec) : List (Str × Val) → Except Exn (List DocNode)
  | [] => .ok []
  | (name, f) :: r => do
    let b ← rec name f .none
    let bs ← docMembers rec r
    return b :: bs

/-- `self._collate_fields(structure, excluded)`.  Simplification: only dicts are handed over. -/
def docCollate (w : DocWorld) (excluded : List Str) (members : Val) : Except Exn (List (Str × Val)) :=
  match w.collate with
  | none => .error (.py .attributeError)
  | some f =>
    match members with
    | .dict d => f d excluded
    | _ => .error (.py .attributeError)

/-- The loop over the sorted variants (doc/generator.py:158-163). -/
def docVariants (env : Env) (w : DocWorld) (rec : DocRec) (name : Val) : List (Val × Val) → Except Exn (List DocNode)
  | [] => .ok []
  | (id, m) :: r => do
    let ms ← docCollate w [c!"type"] m
    let content ← docMembers rec ms
    let bs ← docVariants env w rec name r
    return .block c!"field" [strKey env name ++ c!"=" ++ env.repr id] [(c!"polymorphic_discriminator", [])] content :: bs

/-- The entries of `structure.items()`, sorted. -/
def docSortedItems (members : Val) : Except Exn (List (Val × Val)) :=
  match members with
  | .dict m => if comparable (m.map (·.1)) then .ok (sortKeys m) else .error (.py .typeError)
  | _ => .error (.py .attributeError)

/-- _describe_structure (doc/generator.py:151-166) -/
def docStructure (env : Env) (w : DocWorld) (rec : DocRec) (d : List (Val × Val)) :
    Except Exn (List (Str × Str) × List DocNode) :=
  if !(docGet d c!"structure").truthy then .ok ([], [])
  else if (docGet d c!"polymorphic_on").truthy then do
    let name ← docItem (docGet d c!"polymorphic_on") c!"name"
    let vs ← docSortedItems (docGet d c!"structure")
    let bs ← docVariants env w rec name vs
    return ([(c!"polymorphic", [])], bs)
  else do
    let ms ← docCollate w [] (docGet d c!"structure")
    let bs ← docMembers rec ms
    return ([], bs)

/-- _describe_text (doc/generator.py:168-179) -/
def docText (env : Env) (d : List (Val × Val)) : Except Exn (List (Str × Str)) := do
  let a ← docWhen (docIsNumber (docGet d c!"min_length")) (percentR env c!"min_length=" (docGet d c!"min_length"))
  let b ← docWhen (docIsNumber (docGet d c!"max_length")) (percentR env c!"max_length=" (docGet d c!"max_length"))
  let strip := ((dictGet d (.str c!"strip")).getD (.bool true)).truthy
  return docConstraints c!", " (a ++ b ++ if strip then [] else [c!"strip=false"]) ++
    if (docGet d c!"pattern").truthy then [(c!"pattern", strKey env (docGet d c!"pattern"))] else []

/-- The parts without a name of their own (doc/generator.py:190-194). -/
def docItems (rec : DocRec) : List Val → Except Exn (List DocNode)
  | [] => .ok []
  | v :: r => do
    let b ← rec [] v .none
    let bs ← docItems rec r
    return b :: bs

/-- _describe_tuple (doc/generator.py:190-194) -/
def docTuple (rec : DocRec) (d : List (Val × Val)) : Except Exn (List DocNode) :=
  if !(docGet d c!"values").truthy then .ok []
  else do
    let l ← iterate (docGet d c!"values")
    docItems rec l

/-- _describe_union (doc/generator.py:196-200): `enumerat,e(fields)` looks up a name that does not exist. -/
def docUnion (d : List (Val × Val)) : Except Exn (List DocNode) :=
  if !(docGet d c!"fields").truthy then .ok [] else .error (.py .nameError)

/-- The formatter `_describe_<fieldtype>`, if there is one (doc/generator.py:232-234): parameters and content added to the
block. -/
def docFormatter (env : Env) (w : DocWorld) (rec : DocRec) (type : Str) (field : Val) (d : List (Val × Val)) :
    Except Exn (List (Str × Str) × List DocNode) :=
  if type = c!"date" then (docMoments env docIsDate d).map fun l => (docConstraints c!", " l, [])
  else if type = c!"datetime" then (docDateTime env d).map fun l => (docConstraints c!", " l, [])
  else if type = c!"decimal" then (docNumbers env c!"min=" d).map fun l => (docConstraints c!", " l, [])
  else if type = c!"enumeration" then (docEnumeration field d).map fun l => (l, [])
  else if type = c!"float" then (docNumbers env c!"max=" d).map fun l => (docConstraints c!" " l, [])
  else if type = c!"integer" then (docNumbers env c!"max=" d).map fun l => (docConstraints c!", " l, [])
  else if type = c!"map" then docMap env rec field d
  else if type = c!"sequence" then docSequence rec d
  else if type = c!"structure" then docStructure env w rec d
  else if type = c!"text" then (docText env d).map fun l => (l, [])
  else if type = c!"time" then (docMoments env docIsTime d).map fun l => (docConstraints c!", " l, [])
  else if type = c!"tuple" then (docTuple rec d).map fun l => ([], l)
  else if type = c!"union" then (docUnion d).map fun l => ([], l)
  else .ok ([], [])

/-- `if value: block.set(attr, value)` (doc/generator.py:213-216) -/
def docSaid (env : Env) (d : List (Val × Val)) (attr : Str) : List (Str × Str) :=
  if (docGet d attr).truthy then [(attr, strKey env (docGet d attr))] else []

/-- doc/generator.py:218-220 -/
def docFlag (w : DocWorld) (d : List (Val × Val)) (attr : Str) (ignored : List Str) : List (Str × Str) :=
  if (docGet d attr).truthy && !(match w.role with | some r => ignored.contains r | none => false) then [(attr, [])] else []

/-- doc/generator.py:222-228 -/
def docRepr (env : Env) (d : List (Val × Val)) (attr : Str) : List (Str × Str) :=
  if (docGet d attr).isNone then [] else [(attr, env.repr (docGet d attr))]

/-- doc/generator.py:230-232 -/
def docTitle (env : Env) (d : List (Val × Val)) : List (Str × Str) :=
  if (docGet d c!"title").isNone then [] else [(c!"title", strKey env (docGet d c!"title"))]

/-- The parameters every block has (doc/generator.py:204-232). -/
def docHead (env : Env) (w : DocWorld) (sectional : Bool) (key type : Val) (d : List (Val × Val)) : List (Str × Str) :=
  (if sectional then [(c!"sectional", [])] else []) ++
  [(c!"type", if key.truthy then strKey env key ++ c!": " ++ strKey env type else strKey env type)] ++
  docSaid env d c!"description" ++ docSaid env d c!"notes" ++
  docFlag w d c!"nonnull" [] ++ docFlag w d c!"ignore_null" [] ++ docFlag w d c!"required" [c!"schema"] ++
  docRepr env d c!"constant" ++ docRepr env d c!"default" ++ docTitle env d

/-- One call of `_document_field` (doc/generator.py:202-237).  Simplification: the attributes of the generator are those
of DocumentationGenerator and `_collate_fields`; the dict of a field is not a subclass. -/
def docStep (env : Env) (w : DocWorld) (rec : DocRec) (name : Str) (field : Val) (sectional : Bool) (key : Val) :
    Except Exn DocNode :=
  match field with
  | .dict d => do
    let type ← docItem field c!"fieldtype"
    let r ← docFormatter env w rec (strKey env type) field d
    return .block c!"field" [name] (docHead env w sectional key type d ++ r.1) r.2
  | _ => .error (.py .typeError)

/-- `_document_field(name, field, role, key=key)` with `n` levels of call depth available. -/
def docField (env : Env) (w : DocWorld) : Nat → DocRec
  | 0 => fun _ _ _ => .error (.py .recursionError)
  | n + 1 => fun name field key => docStep env w (docField env w n) name field false key

/-- `_document_field(name, field, role, sectional)` with `n` levels of call depth available. -/
def documentField (env : Env) (w : DocWorld) : Nat → Str → Val → Bool → Except Exn DocNode
  | 0 => fun _ _ _ => .error (.py .recursionError)
  | n + 1 => fun name field sectional => docStep env w (docField env w n) name field sectional .none

/-! ### rendering -/

/-- `'    ' * indent` -/
def docPrefix (indent : Nat) : Str := List.replicate (4 * indent) ' '

/-- A parameter (doc/generator.py:46-51): the lines of its value but the first are indented. -/
def renderParam (indent : Nat) (p : Str × Str) : Str :=
  docPrefix (indent + 1) ++ c!":" ++ p.1 ++ c!": " ++
    joinStr c!"\n" (match splitOn '\n' p.2 with
      | [] => []
      | a :: r => a :: r.map fun v => docPrefix (indent + 1) ++ c!"    " ++ v)

mutual
/-- directive.render (doc/generator.py:33-60); `wrap prefix text` are the lines `textwrap.wrap` makes of a text without
its leading whitespace. -/
def renderNode (wrap : Str → Str → List Str) (indent : Nat) : DocNode → Str
  | .block directive args params content =>
    c!"\n" ++ docPrefix indent ++ c!".. " ++ directive ++ c!":: " ++ joinStr c!" " args ++ c!"\n" ++
      joinStr c!"\n" (params.map (renderParam indent)) ++ c!"\n\n" ++ joinStr c!"\n\n" (renderNodes wrap (indent + 1) content)
  | .text s => joinStr c!"\n" (wrap (docPrefix indent) s)
def renderNodes (wrap : Str → Str → List Str) (indent : Nat) : List DocNode → List Str
  | [] => []
  | b :: r => renderNode wrap indent b :: renderNodes wrap indent r
end

/-! ### the directive `field` of the documentation -/

/-- docutils nodes: texts, and elements with classes. -/
inductive DocElem
  | text (s : Str)
  | el (tag : Str) (classes : List Str) (children : List DocElem)

/-- `emphasis`, `inline`, `literal`, `strong` (doc/domain.py:21-24, 36-44, 56-59) -/
def textElem (tag : Str) (s : Str) (classes : List Str) : DocElem := .el tag classes [.text s]

/-- `FieldDefinition.option_spec` (doc/domain.py:89-109); `true` for flags -/
def docOptionSpec : List (Str × Bool) := [(c!"constant", false), (c!"constraints", false), (c!"default", false),
  (c!"description", false), (c!"example", false), (c!"ignore_null", true), (c!"key", false), (c!"nonnull", true),
  (c!"pattern", false), (c!"polymorphic", true), (c!"polymorphic_discriminator", true), (c!"required", true),
  (c!"required_keys", false), (c!"sectional", true), (c!"subtype", false), (c!"title", false), (c!"type", false),
  (c!"unique", true), (c!"values", false)]

/-- `FieldDefinition.flags` (doc/domain.py:111) -/
def docFlags : List Str := [c!"required", c!"nonnull", c!"ignore_null", c!"polymorphic", c!"unique"]

/-- `FieldDefinition.aspects` (doc/domain.py:113-117) -/
def docAspects : List Str := [c!"pattern", c!"values", c!"required_keys"]

/-- `self.options.get(name)`, `''` if it is missing: all the values are only used if they are not empty. -/
def optGet (options : List (Str × Str)) (name : Str) : Str := (options.lookup name).getD []

/-- `name in self.options` -/
def optHas (options : List (Str × Str)) (name : Str) : Bool := (options.lookup name).isSome

/-- The separator after the name (doc/domain.py:142-151). -/
def docSeparator (u : Chars) (discriminator : Bool) (field : Str) : Str :=
  if discriminator then []
  else if field.contains ' ' then c!":"
  else match parseInt u field with
    | some _ => c!"."
    | none => c!":"

/-- The name (doc/domain.py:127-154) -/
def docName (u : Chars) (args : List Str) (options : List (Str × Str)) : List DocElem :=
  match args with
  | [c :: field] =>
    let has (name : Str) : Str := if optHas options name then name else []
    [textElem c!"strong" (c :: field ++ docSeparator u (optHas options c!"polymorphic_discriminator") (c :: field))
      [c!"field-name", has c!"required", has c!"sectional", has c!"polymorphic_discriminator"]]
  | _ => []

/-- `signature += text(' ')` and an element, if there is something to show. -/
def docPiece (shown : Bool) (e : DocElem) : List DocElem := if shown then [.text c!" ", e] else []

/-- The subtype (doc/domain.py:161-176); the first semicolon separates the aspects. -/
def docSubtype (subtype : Str) : DocElem :=
  let aspects := (subtype.dropWhile (· != ';')).tail
  .el c!"inline" [c!"field-subtype"] ([.text c!"<", textElem c!"emphasis" (subtype.takeWhile (· != ';')) [c!"field-type"]] ++
    docPiece (!aspects.isEmpty) (textElem c!"inline" aspects [c!"field-flags"]) ++ [.text c!">"])

/-- The signature (doc/domain.py:124-208). -/
def docSignature (u : Chars) (args : List Str) (options : List (Str × Str)) : DocElem :=
  let get := optGet options
  let flags := docFlags.filter (optHas options)
  .el c!"paragraph" [c!"field-signature"] (docName u args options ++
    docPiece (!(get c!"type").isEmpty) (textElem c!"emphasis" (get c!"type") [c!"field-type"]) ++
    docPiece (!(get c!"subtype").isEmpty) (docSubtype (get c!"subtype")) ++
    docPiece (!(get c!"key").isEmpty) (textElem c!"literal" (c!"key=" ++ get c!"key") [c!"field-constraints"]) ++
    docPiece (!(get c!"constant").isEmpty) (textElem c!"literal" (c!"constant=" ++ get c!"constant") [c!"field-default"]) ++
    docPiece (!(get c!"default").isEmpty && (get c!"constant").isEmpty)
      (textElem c!"literal" (c!"default=" ++ get c!"default") [c!"field-default"]) ++
    docPiece (!(get c!"constraints").isEmpty) (textElem c!"literal" (get c!"constraints") [c!"field-constraints"]) ++
    docPiece (!flags.isEmpty) (textElem c!"inline" (joinStr c!" " flags) [c!"field-flags"]) ++
    docPiece (!(get c!"title").isEmpty) (textElem c!"inline" (c!"\"" ++ get c!"title" ++ c!"\"") [c!"field-title"]))

/-- `aspect_block` (doc/domain.py:64-68) -/
def docAspect (name value : Str) : DocElem :=
  .el c!"paragraph" [c!"field-aspect"] [textElem c!"inline" (name ++ c!": ") [c!"aspect-name"], textElem c!"literal" value []]

/-- FieldDefinition.run (doc/domain.py:119-227); `content` are the nodes docutils parsed from the content. -/
def docRun (u : Chars) (args : List Str) (options : List (Str × Str)) (content : List DocElem) : DocElem :=
  let sectional := if optHas options c!"sectional" then c!"sectional" else []
  let block :=
    (if (optGet options c!"description").isEmpty then [] else
      [textElem c!"inline" (optGet options c!"description") [c!"field-description"]]) ++
    (docAspects.filter fun a => !(optGet options a).isEmpty).map (fun a => docAspect a (optGet options a)) ++ content
  .el c!"container" [c!"field", sectional] (docSignature u args options ::
    if block.isEmpty then [] else [.el c!"block_quote" [] block])

/-- StructureDefinition.run (doc/domain.py:229-243) -/
def docStructRun (arg : Str) (content : List DocElem) : List DocElem :=
  .el c!"paragraph" [c!"structure-header"] [textElem c!"strong" arg []] ::
    if content.isEmpty then [] else [.el c!"block_quote" [c!"structure-block"] content]

end Scheme
