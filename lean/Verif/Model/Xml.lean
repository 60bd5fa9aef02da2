import Verif.Model.StructuredText
import Verif.Model.Extract

/-! The XML format (scheme/formats/xml.py), together with the part of `xml.etree` it relies on. -/

namespace Scheme

/-- An element: tag, whether it has the attribute `null="true"`, `text` (`none` is None) and subelements. -/
inductive Xml
  | node (tag : Str) (null : Bool) (text : Option Str) (kids : List Xml)

def Xml.tag : Xml → Str
  | .node t .. => t

/-! ### writing and reading elements -/

/-- The characters of a name that can be written and read back: others are refused by the reader, written as character
references (which names cannot hold) or taken as namespaces. -/
def nameStart (c : Char) : Bool := ('a' ≤ c && c ≤ 'z') || ('A' ≤ c && c ≤ 'Z') || c == '_'
def nameChar (c : Char) : Bool := nameStart c || ('0' ≤ c && c ≤ '9') || c == '-' || c == '.'
def isXmlName : Str → Bool
  | [] => false
  | c :: r => nameStart c && r.all nameChar

/-- ElementTree's `_escape_cdata` and the encoding to us-ascii with character references. -/
def xmlEscapeChar (c : Char) : Str :=
  if c = '&' then c!"&amp;" else if c = '<' then c!"&lt;" else if c = '>' then c!"&gt;"
  else if c.toNat < 128 then [c] else '&' :: '#' :: (natStr c.toNat ++ [';'])
def xmlEscape (s : Str) : Str := s.flatMap xmlEscapeChar

mutual
/-- `etree.tostring(element).decode('us-ascii')`: an element without text and subelements is written as one tag. -/
def xmlWrite : Xml → Str
  | .node tag null text kids =>
    let head := '<' :: tag ++ (if null then c!" null=\"true\"" else [])
    if (text.getD []).isEmpty && kids.isEmpty then head ++ c!" />"
    else head ++ '>' :: (xmlEscape (text.getD []) ++ (xmlWriteAll kids ++ ('<' :: '/' :: (tag ++ ['>']))))
def xmlWriteAll : List Xml → Str
  | [] => []
  | x :: r => xmlWrite x ++ xmlWriteAll r
end

/-- Line ends are normalised by XML readers. -/
def xmlNewlines : Str → Str
  | [] => []
  | '\r' :: '\n' :: r => '\n' :: xmlNewlines r
  | '\r' :: r => '\n' :: xmlNewlines r
  | c :: r => c :: xmlNewlines r

/-- The characters XML allows. -/
def xmlAllowed (c : Char) : Bool :=
  c == '\t' || c == '\n' || c == '\r' || (32 ≤ c.toNat && c.toNat != 0xfffe && c.toNat != 0xffff)

/-- What follows `&` up to `;`. -/
def xmlEntity : Str → Option Char
  | ['a', 'm', 'p'] => some '&'
  | ['l', 't'] => some '<'
  | ['g', 't'] => some '>'
  | ['q', 'u', 'o', 't'] => some '"'
  | ['a', 'p', 'o', 's'] => some '\''
  | '#' :: ds =>
    if !ds.isEmpty && ds.all (fun c => '0' ≤ c && c ≤ '9') then
      let n := ds.foldl (fun n c => n * 10 + (c.toNat - '0'.toNat)) 0
      if h : n.isValidChar then
        let c := Char.ofNatAux n h
        if xmlAllowed c then some c else none
      else none
    else none
  | _ => none

/-- Character data with references resolved; `none` is a parse error.  Simplification: hexadecimal references are not
covered. -/
def xmlText : Nat → Str → Option Str
  | 0, _ => none
  | _ + 1, [] => some []
  | n + 1, '&' :: r =>
    match r.dropWhile (· != ';') with
    | _ :: rest => (xmlEntity (r.takeWhile (· != ';'))).bind fun c => (xmlText n rest).map (c :: ·)
    | [] => none
  | n + 1, c :: r => if xmlAllowed c then (xmlText n r).map (c :: ·) else none

/-- `s` without the given beginning. -/
def dropPrefix? : Str → Str → Option Str
  | [], s => some s
  | _ :: _, [] => none
  | p :: ps, c :: s => if p = c then dropPrefix? ps s else none

/-- `text` of an element: None if there is none. -/
def textOf (s : Str) : Option Str := if s.isEmpty then none else some s

mutual
/-- Reading an element.  `none` is a parse error or something this does not cover: attributes other than
`null="true"`, comments, CDATA sections, processing instructions, white space inside tags. -/
def xmlElement : Nat → Str → Option (Xml × Str)
  | 0, _ => none
  | n + 1, s =>
    match s with
    | '<' :: s =>
      let tag := s.takeWhile nameChar
      let r := s.dropWhile nameChar
      if !isXmlName tag then none
      else
        let (null, r) := match dropPrefix? c!" null=\"true\"" r with
          | some r' => (true, r')
          | none => (false, r)
        match dropPrefix? c!" />" r with
        | some rest => some (.node tag null none [], rest)
        | none =>
          match dropPrefix? ['>'] r with
          | none => none
          | some body =>
            match xmlText (body.length + 1) (xmlNewlines (body.takeWhile (· != '<'))) with
            | none => none
            | some text =>
              match xmlElements n (body.dropWhile (· != '<')) with
              | none => none
              | some (kids, rest) =>
                match dropPrefix? ('<' :: '/' :: (tag ++ ['>'])) rest with
                | some rest => some (.node tag null (textOf text) kids, rest)
                | none => none
    | _ => none
/-- Reading subelements up to an end tag.  Text after a subelement is its tail, which the format ignores. -/
def xmlElements : Nat → Str → Option (List Xml × Str)
  | 0, _ => none
  | n + 1, s =>
    match s with
    | '<' :: '/' :: r => some ([], '<' :: '/' :: r)
    | s =>
      match xmlElement n s with
      | none => none
      | some (x, rest) =>
        match xmlElements n (rest.dropWhile (· != '<')) with
        | none => none
        | some (kids, rest) => some (x :: kids, rest)
end

/-- `<?xml version="1.0"?>` (xml.py:16) -/
def xmlPreamble : Str := c!"<?xml version=\"1.0\"?>"

/-- `etree.fromstring(value)`.  Simplification: white space around the document is not covered. -/
def xmlParse (s : Str) : Option Xml :=
  let s := (dropPrefix? xmlPreamble s).getD s
  match xmlElement (s.length + 1) s with
  | some (x, []) => some x
  | _ => none

/-! ### values -/

/-- `str(content)` -/
def xmlStr (env : Env) : Val → Str
  | .str s => s
  | .int i => intStr i
  | v => env.str v

/-- The items of a dict with text keys.  Simplification: `SubElement` accepts any tag, the TypeError for one that is no
text comes from `tostring`. -/
def textItems : List (Val × Val) → Except Exn (List (Str × Val))
  | [] => .ok []
  | (.str k, v) :: r => do
    let r' ← textItems r
    return (k, v) :: r'
  | _ :: _ => .error (.py .typeError)

/-- The contents of an element: null, text, subelements. -/
abbrev XmlContent := Bool × Option Str × List Xml

/-- A recursive call of `_serialize_content`. -/
abbrev XmlSer := Field → Val → Except Exn XmlContent

/-- `subelement = etree.SubElement(element, tag)` and its contents; a placeholder without definition has no `type`. -/
def xmlSub (env : Env) (rec : XmlSer) (tag : Field → Str) (f : Field) (v : Val) : Except Exn Xml :=
  match resolve env f with
  | none => .error (.py .attributeError)
  | some g => do
    let (null, text, kids) ← rec g v
    return .node (tag g) null text kids

/-- The loop over the sorted items of a structure (xml.py:52-54). -/
def xmlMembers (env : Env) (rec : XmlSer) (defn : List (Str × Field)) : List (Str × Val) → Except Exn (List Xml)
  | [] => .ok []
  | (k, v) :: r =>
    match defn.lookup k with
    | none => .error (.py .keyError)
    | some f => do
      let x ← xmlSub env rec (fun _ => k) f v
      let r' ← xmlMembers env rec defn r
      return x :: r'

/-- The loop over the sorted items of a map (xml.py:57-59). -/
def xmlEntries (env : Env) (rec : XmlSer) (value : Field) : List (Str × Val) → Except Exn (List Xml)
  | [] => .ok []
  | (k, v) :: r => do
    let x ← xmlSub env rec (fun _ => k) value v
    let r' ← xmlEntries env rec value r
    return x :: r'

/-- `field.name or other` -/
def nameOr (other : Str) (f : Field) : Str :=
  match f.name with
  | some s => if s.isEmpty then other else s
  | none => other

/-- The loop over the items of a sequence (xml.py:62-65). -/
def xmlItems (env : Env) (rec : XmlSer) (item : Field) : List Val → Except Exn (List Xml)
  | [] => .ok []
  | v :: r => do
    let x ← xmlSub env rec (nameOr c!"item") item v
    let r' ← xmlItems env rec item r
    return x :: r'

/-- The loop over the values of a tuple (xml.py:68-70). -/
def xmlSlots (env : Env) (rec : XmlSer) : List Field → List Val → Except Exn (List Xml)
  | f :: fs, v :: r => do
    let x ← xmlSub env rec (nameOr c!"value") f v
    let r' ← xmlSlots env rec fs r
    return x :: r'
  | _, _ => .ok []

/-- `content.items()` sorted, nothing for a falsy content (xml.py:51-52, 56-57); AttributeError for a value without
`items`. -/
def xmlSorted (v : Val) : Except Exn (List (Str × Val)) :=
  if !v.truthy then .ok []
  else match v with
    | .dict d => do
      let l ← textItems d
      return sortEntries l
    | _ => .error (.py .attributeError)

/-- Xml._serialize_content (xml.py:41-74).  A polymorphic structure has no member fields by name: KeyError
(simplification: a key that is also an identity raises AttributeError instead, unless its value is None). -/
def xmlContentStep (env : Env) (rec : XmlSer) : XmlSer := fun f v =>
  if v.isNone then .ok (true, none, [])
  else match f with
    | .leaf _ .boolean => .ok (false, some (if v.truthy then c!"true" else c!"false"), [])
    | .leaf _ _ => .ok (false, some (xmlStr env v), [])
    | .structure _ defn _ _ => do
      let l ← xmlSorted v
      let kids ← xmlMembers env rec defn l
      return (false, none, kids)
    | .poly .. => do
      let l ← xmlSorted v
      if l.isEmpty then return (false, none, []) else .error (.py .keyError)
    | .map _ _ value _ => do
      let l ← xmlSorted v
      let kids ← xmlEntries env rec value l
      return (false, none, kids)
    | .sequence _ item .. =>
      if !v.truthy then .ok (false, none, [])
      else do
        let l ← iterate v
        let kids ← xmlItems env rec item l
        return (false, none, kids)
    | .tuple _ values =>
      if !v.truthy then .ok (false, none, [])
      else do
        let l ← iterate v
        let kids ← xmlSlots env rec values l
        return (false, none, kids)
    | .union .. => .error (.py .notImplemented)
    | .undef _ => .error (.py .attributeError)

def xmlContent (env : Env) : Nat → XmlSer
  | 0 => fun _ _ => .error (.py .recursionError)
  | n + 1 => xmlContentStep env (xmlContent env n)

/-- Xml.serialize (xml.py:18-30).  Simplification: `tostring` also accepts tags that no reader accepts. -/
def xmlSerialize (env : Env) (n : Nat) (f : Field) (v : Val) (preamble : Bool) : Except Exn Str := do
  let (null, text, kids) ← xmlContent env n f v
  let s := xmlWrite (.node (nameOr c!"root" f) null text kids)
  return if preamble then xmlPreamble ++ s else s

/-- A recursive call of `_unserialize_element`, which returns the tag and the value. -/
abbrev XmlUns := Field → Xml → Except Exn Val

/-- The call for a subelement. -/
def xmlChild (env : Env) (rec : XmlUns) (f : Field) (x : Xml) : Except Exn Val :=
  match resolve env f with
  | none => .error (.py .attributeError)
  | some g => rec g x

def xmlReadEntries (env : Env) (rec : XmlUns) (value : Field) : List Xml → Except Exn (List (Val × Val))
  | [] => .ok []
  | x :: r => do
    let v ← xmlChild env rec value x
    let r' ← xmlReadEntries env rec value r
    return (.str x.tag, v) :: r'

def xmlReadMembers (env : Env) (rec : XmlUns) (defn : List (Str × Field)) : List Xml → Except Exn (List (Val × Val))
  | [] => .ok []
  | x :: r =>
    match defn.lookup x.tag with
    | none => .error (.py .keyError)
    | some f => do
      let v ← xmlChild env rec f x
      let r' ← xmlReadMembers env rec defn r
      return (.str x.tag, v) :: r'

def xmlReadItems (env : Env) (rec : XmlUns) (item : Field) : List Xml → Except Exn (List Val)
  | [] => .ok []
  | x :: r => do
    let v ← xmlChild env rec item x
    let r' ← xmlReadItems env rec item r
    return v :: r'

def xmlReadSlots (env : Env) (rec : XmlUns) : List Field → List Xml → Except Exn (List Val)
  | _, [] => .ok []
  | [], _ :: _ => .error (.py .indexError)
  | f :: fs, x :: r => do
    let v ← xmlChild env rec f x
    let r' ← xmlReadSlots env rec fs r
    return v :: r'

/-- Xml._unserialize_element (xml.py:76-100).  `dict(...)` of pairs keeps the last value of a key. -/
def xmlElementStep (env : Env) (rec : XmlUns) : XmlUns := fun f x =>
  match x with
  | .node _ null text kids =>
    if null then .ok .none
    else match f with
      | .leaf _ .boolean => match text with
        | some t => .ok (.bool (lower env.u t == c!"true"))
        | none => .error (.py .attributeError)
      | .leaf _ (.float ..) => match text with
        | some t => match env.floatOfStr t with
          | some y => .ok (.float y)
          | none => .error (.py .valueError)
        | none => .error (.py .typeError)
      | .leaf _ (.integer ..) => match text with
        | some t => match parseInt env.u t with
          | some i => .ok (.int i)
          | none => .error (.py .valueError)
        | none => .error (.py .typeError)
      | .leaf _ _ => .ok (match text with | some t => .str t | none => .none)
      | .map _ _ value _ => (xmlReadEntries env rec value kids).map fun l => .dict (dictOf l)
      | .sequence _ item .. => (xmlReadItems env rec item kids).map .list
      | .structure _ defn _ _ => (xmlReadMembers env rec defn kids).map fun l => .dict (dictOf l)
      | .poly .. => if kids.isEmpty then .ok (.dict []) else .error (.py .keyError)
      | .tuple _ values => (xmlReadSlots env rec values kids).map .tuple
      | .union .. => .error (.py .notImplemented)
      | .undef _ => .error (.py .attributeError)

def xmlValue (env : Env) : Nat → XmlUns
  | 0 => fun _ _ => .error (.py .recursionError)
  | n + 1 => xmlElementStep env (xmlValue env n)

/-- Xml.unserialize (xml.py:32-39); a parse error is a SyntaxError, `other 1`. -/
def xmlUnserialize (env : Env) (n : Nat) (f : Field) (s : Str) : Except Exn Val :=
  match xmlParse s with
  | some x => xmlValue env n f x
  | none => .error (.py (.other 1))

end Scheme
