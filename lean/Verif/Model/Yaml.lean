import Verif.Model.Field
import Verif.Model.StructuredText

/-! The YAML format (scheme/formats/yaml.py): writing.  Reading is left to PyYAML (yaml.py:41-43). -/

namespace Scheme

/-- What `_serialize_value` returns: a text, or a list of lines. -/
inductive YamlOut
  | text (s : Str)
  | lines (l : List Str)

/-- `cls.indent * level` (yaml.py:25) -/
def yamlPad (level : Nat) : Str := List.replicate (2 * level) ' '

/-- `Yaml.indicators` (yaml.py:26) -/
def yamlIndicators : Str := c!"-?:,[]{}#&*!|>'\"%@`"

/-- `Yaml.requires_quotes` (yaml.py:31) -/
def yamlReserved : List Str := [c!"null", c!"~", c!"true", c!"false"]

/-- `ab in s` for two characters. -/
def hasPair (a b : Char) : Str → Bool
  | x :: y :: r => (x == a && y == b) || hasPair a b (y :: r)
  | _ => false

/-- Yaml._requires_escaping (yaml.py:67-76) for a text that is not empty. -/
def yamlEscaping (s : Str) : Bool :=
  (match s with | c :: _ => yamlIndicators.contains c | [] => false) || hasPair ':' ' ' s || hasPair ' ' '#' s

/-- `"'%s'" % value.replace("'", "''")` (yaml.py:148) -/
def yamlQuote (s : Str) : Str := '\'' :: (s.flatMap (fun c => if c = '\'' then c!"''" else [c]) ++ c!"'")

/-- Yaml._serialize_string (yaml.py:129-162).  `wrap text indent` are the lines TextWrapper makes of a long text
(yaml.py:155-162), which are not modelled. -/
def yamlString (env : Env) (wrap : Str → Str → List Str) (s : Str) (level : Nat) : YamlOut :=
  if s.isEmpty then .text c!"''"
  else if decide (s.length ≤ 5) && yamlReserved.contains (lower env.u s) then .text ('\'' :: (s ++ c!"'"))
  else if s.contains '\n' then
    .lines (c!"|" :: (splitOn '\n' s).map fun l => if l.isEmpty then [] else yamlPad level ++ l)
  else if s.length + (yamlPad level).length ≤ 100 then
    if yamlEscaping s then .text (yamlQuote s) else .text s
  else .lines (wrap (if yamlEscaping s then yamlQuote s else s) (yamlPad level))

/-- Yaml._is_simple_sequence (yaml.py:59-65) -/
def yamlSimple : Val → Bool
  | .none => true
  | .bool _ => true
  | .float _ => true
  | .int _ => true
  | _ => false

/-- The lines for one element of a sequence (yaml.py:89-95). -/
def yamlItem (env : Env) (level : Nat) : YamlOut → Except Exn (List Str)
  | .text t => .ok [yamlPad level ++ c!"- " ++ t]
  | .lines [] => .error (.py .indexError)
  | .lines (c :: r) => .ok ((yamlPad level ++ c!"- " ++ lstripBy (isSpace env.u) c) :: r)

/-- The lines for one entry of a structure (yaml.py:110-125); texts begin on the line of the key. -/
def yamlEntry (env : Env) (level : Nat) (key : Str) (isText : Bool) : YamlOut → Except Exn (List Str)
  | .text t => .ok [yamlPad level ++ key ++ c!": " ++ t]
  | .lines l =>
    if isText then
      match l with
      | [] => .error (.py .indexError)
      | c :: r => .ok ((yamlPad level ++ key ++ c!": " ++ lstripBy (isSpace env.u) c) :: r)
    else .ok ((yamlPad level ++ key ++ c!":") :: l)

def isStrV : Val → Bool
  | .str _ => true
  | _ => false

/-- The loop over the elements of a sequence. -/
def yamlItems (env : Env) (level : Nat) : List (Except Exn YamlOut) → Except Exn (List Str)
  | [] => .ok []
  | o :: r => do
    let out ← o
    let a ← yamlItem env level out
    let b ← yamlItems env level r
    return a ++ b

/-- The loop over the sorted items of a structure. -/
def yamlEntries (env : Env) (level : Nat) : List (Str × Bool × Except Exn YamlOut) → Except Exn (List Str)
  | [] => .ok []
  | (k, t, o) :: r => do
    let out ← o
    let a ← yamlEntry env level k t out
    let b ← yamlEntries env level r
    return a ++ b

/-- The texts of the elements of a simple sequence, joined (yaml.py:83-84). -/
def yamlFlow : List (Except Exn YamlOut) → Except Exn (List Str)
  | [] => .ok []
  | o :: r => do
    match ← o with
    | .text t =>
      let b ← yamlFlow r
      return t :: b
    | .lines _ => .error (.py .typeError)

mutual
/-- Yaml._serialize_value (yaml.py:164-186), with _serialize_sequence (78-97) and _serialize_structure (99-127).
Elements and entries are serialized first and put together, sorted, afterwards.  Simplifications: dicts with keys that
are no texts, ordered dicts and surrogates are not represented. -/
def yamlValue (env : Env) (wrap : Str → Str → List Str) : Val → Nat → Except Exn YamlOut
  | .none, _ => .ok (.text c!"null")
  | .dict d, level =>
    if d.isEmpty then .ok (.text c!"{}")
    else match yamlValueD env wrap d (level + 1) with
      | none => .error (.py (.other 2))
      | some es => (yamlEntries env level (sortEntries es)).map .lines
  | .list l, level =>
    if l.isEmpty then .ok (.text c!"[]")
    else if l.all yamlSimple then
      (yamlFlow (yamlValueL env wrap l 0)).map fun ts => .text ('[' :: (joinStr c!", " ts ++ c!"]"))
    else (yamlItems env level (yamlValueL env wrap l (level + 1))).map .lines
  | .tuple l, level =>
    if l.isEmpty then .ok (.text c!"[]")
    else if l.all yamlSimple then
      (yamlFlow (yamlValueL env wrap l 0)).map fun ts => .text ('[' :: (joinStr c!", " ts ++ c!"]"))
    else (yamlItems env level (yamlValueL env wrap l (level + 1))).map .lines
  | .str s, level => .ok (yamlString env wrap s level)
  | .bool b, _ => .ok (.text (if b then c!"true" else c!"false"))
  | .datetime d, _ => .ok (.text (dateStr env.padYear d.date ++ c!" " ++ timeStr d.time))
  | .date d, _ => .ok (.text (dateStr env.padYear d))
  | .float x, _ => .ok (.text (env.str (.float x)))
  | .int i, _ => .ok (.text (intStr i))
  | .surr _, _ => .error (.py (.other 2))
  | _, _ => .error (.py .valueError)
def yamlValueL (env : Env) (wrap : Str → Str → List Str) : List Val → Nat → List (Except Exn YamlOut)
  | [], _ => []
  | v :: r, level => yamlValue env wrap v level :: yamlValueL env wrap r level
def yamlValueD (env : Env) (wrap : Str → Str → List Str) : List (Val × Val) → Nat → Option (List (Str × Bool × Except Exn YamlOut))
  | [], _ => some []
  | (.str k, v) :: r, level => (yamlValueD env wrap r level).map fun es => (k, isStrV v, yamlValue env wrap v level) :: es
  | _ :: _, _ => none
end

/-- Yaml.serialize (yaml.py:34-39) -/
def yamlSerialize (env : Env) (wrap : Str → Str → List Str) (v : Val) : Except Exn Str :=
  (yamlValue env wrap v 0).map fun
    | .text t => t
    | .lines l => joinStr c!"\n" l

end Scheme
