import Verif.Model.Process
import Verif.Model.Json
import Verif.Model.StructuredText
import Verif.Model.UrlEncoded
import Verif.Model.Xml
import Verif.Model.Yaml

/-! Serializing fields to formats (scheme/field.py:495-523). -/

namespace Scheme

/-- The two methods of a format class.  Simplification: no `params`; what is written is text. -/
structure FormatOps where
  write : Val → Field → Except Exn Str
  read : Str → Field → Except Exn Val

/-- Field.serialize with a format (field.py:495-502). -/
def serializeTo (env : Env) (n : Nat) (f : Field) (ops : FormatOps) (v : Val) (anc : List Str) : Except Exn Str := do
  let s ← process env n f v .outbound true anc
  ops.write s f

/-- Field.unserialize with a format (field.py:515-521). -/
def unserializeFrom (env : Env) (n : Nat) (f : Field) (ops : FormatOps) (text : Str) (anc : List Str) : Except Exn Val := do
  let s ← ops.read text f
  process env n f s .inbound true anc

/-- Json (formats/json.py:9-20) ignores the schema. -/
def jsonOps (env : Env) : FormatOps where
  write v _ := jsonSerialize env v
  read t _ := jsonUnserialize env t

/-- StructuredText (formats/structuredtext.py:8-29) ignores the schema; `numbers` is the parameter `parse_numbers` of `unserialize`.
Simplification: dicts with keys that are no texts are refused. -/
def stOps (env : Env) (numbers : Bool) : FormatOps where
  write v _ := match stSerialize env v with
    | some t => .ok t
    | none => .error (.py (.other 2))
  read t _ := stUnserialize env numbers (.str t)

/-- UrlEncoded (formats/urlencoded.py:16-44), applied by hand to what the field gives: its methods take no schema, so Field.serialize
with this format is a TypeError.  Simplification: as for structured text. -/
def urlOps (env : Env) : FormatOps where
  write v _ := match urlSerialize env v with
    | some r => r
    | none => .error (.py (.other 2))
  read t _ := urlUnserialize env (.str t)

/-- Xml (formats/xml.py:10-39) writes and reads by the schema; `m` bounds the depth. -/
def xmlOps (env : Env) (m : Nat) (preamble : Bool) : FormatOps where
  write v f := xmlSerialize env m f v preamble
  read t f := xmlUnserialize env m f t

/-- Yaml (formats/yaml.py:23-43) ignores the schema; reading is `yaml.load`, which is not part of the code. -/
def yamlOps (env : Env) (wrap : Str → Str → List Str) (load : Str → Except Exn Val) : FormatOps where
  write v _ := yamlSerialize env wrap v
  read t _ := load t

end Scheme
