import Verif.Model.Process
import Verif.Model.StructuredText

/-! The CSV format (scheme/formats/csv.py) together with the writer and the reader of CPython's `csv` module for the
dialect it uses (csv.py:21-29). -/

namespace Scheme

/-! ### Writing -/

/-- A cell with its quotation marks doubled. -/
def csvDouble : Str → Str
  | [] => []
  | c :: r => if c = '"' then '"' :: '"' :: csvDouble r else c :: csvDouble r

/-- One cell as written with `quoting = QUOTE_ALL` and `doublequote = True` (csv.py:23, 27). -/
def csvQuote (s : Str) : Str := '"' :: (csvDouble s ++ ['"'])

/-- `writer.writerow(cells)` (csv.py:64, 79): the text written. -/
def csvRow (cells : List Str) : Str := joinStr c!"," (cells.map csvQuote) ++ c!"\r\n"

/-- `field.structural` (field.py:159; sequence.py:34, map.py:35, tuple.py:21, union.py:22, structure.py:54). -/
def Field.structural : Field → Bool
  | .leaf .. => false
  | _ => true

/-- The fields of the wanted columns (csv.py:55-59, 95-108): `none` for a column that is not declared or structural.
A placeholder without definition has no attribute `structural`. -/
def csvField (env : Env) (defn : List (Str × Field)) (column : Str) : Except Exn (Option Field) :=
  match defn.lookup column with
  | none => .ok none
  | some f => match resolve env f with
    | none => .error (.py .attributeError)
    | some g => .ok (if g.structural then none else some g)

/-- The loop over the columns in Csv.serialize (csv.py:55-59). -/
def csvCells (env : Env) (defn : List (Str × Field)) : List Str → Except Exn (List (Str × Field))
  | [] => .ok []
  | c :: r => do
    let f ← csvField env defn c
    let fs ← csvCells env defn r
    return match f with
      | some g => (c, g) :: fs
      | none => fs

/-- `str(v)` -/
def pyStr (env : Env) : Val → Str
  | .str s => s
  | .int i => intStr i
  | v => env.str v

/-- The text of one cell (csv.py:67-77). -/
def csvCell (env : Env) (f : Field) : Option Val → Str
  | none => []
  | some .none => []
  | some v =>
    if f.type = c!"boolean" then (if v.truthy then c!"true" else c!"false")
    else pyStr env v

/-- The loop over the rows in Csv.serialize (csv.py:65-79).  An item that is no dict has no method `get`. -/
def csvRows (env : Env) (cells : List (Str × Field)) : List Val → Except Exn Str
  | [] => .ok []
  | .dict d :: r => do
    let t ← csvRows env cells r
    return csvRow (cells.map fun c => csvCell env c.2 (dictGet d (.str c.1))) ++ t
  | _ :: _ => .error (.py .attributeError)

/-- The argument `columns` of Csv.serialize. -/
inductive ColumnsArg
  | absent
  | text (s : Str)
  | names (l : List Str)

/-- The wanted columns (csv.py:50-53). -/
def csvColumns (defn : List (Str × Field)) : ColumnsArg → List Str
  | .absent => (sortEntries defn).map (·.1)
  | .text s => splitOn ',' s
  | .names l => if l.isEmpty then (sortEntries defn).map (·.1) else l

/-- Following `path` (csv.py:33-39).  A field without members raises TypeError.  Simplification: a polymorphic
structure or a value that is no dict on the way is reported as ValueError. -/
def csvPath (env : Env) : List Str → Val → Field → Except Exn (Val × Field)
  | [], v, f => .ok (v, f)
  | k :: r, v, f => match f, v with
    | .structure _ defn _ _, .dict d => match (defn.lookup k).bind (resolve env), dictGet d (.str k) with
      | some g, some w => csvPath env r w g
      | _, _ => .error (.py .valueError)
    | .structure .., _ => .error (.py .valueError)
    | .poly .., _ => .error (.py .valueError)
    | _, _ => .error (.py .typeError)

/-- Csv.serialize behind the path (csv.py:41-81).  Simplification: a list of polymorphic structures, whose variants are plain
dicts without the attribute `structural`, is always refused with AttributeError. -/
def csvSerializeAt (env : Env) (columns : ColumnsArg) (v : Val) : Field → Except Exn Str
  | .sequence _ item _ _ _ => match v with
    | .list l | .tuple l => match resolve env item with
      | some (.structure _ defn _ _) => do
        let cells ← csvCells env defn (csvColumns defn columns)
        let t ← csvRows env cells l
        return csvRow (cells.map (·.1)) ++ t
      | some (.poly ..) => .error (.py .attributeError)
      | _ => .error (.py .valueError)
    | _ => .error (.py .valueError)
  | _ => .error (.py .valueError)

/-- Csv.serialize (csv.py:31-81) -/
def csvSerialize (env : Env) (v : Val) (schema : Field) (columns : ColumnsArg) (path : Option Str) : Except Exn Str :=
  match path with
  | some (c :: r) => do
    let p ← csvPath env (splitOn '.' (c :: r)) v schema
    csvSerializeAt env columns p.1 p.2
  | _ => csvSerializeAt env columns v schema

/-! ### Reading -/

/-- `_csv.Error` -/
def csvError : Exn := .py (.other 1)

/-- `_csv.field_size_limit()` -/
def csvLimit : Nat := 131072

/-- States of the reader (CPython Modules/_csv.c, ParserState); states that only an escape character leads to are left
out, the dialect has none (csv.py:24). -/
inductive CsvMode
  | startRecord | startField | inField | inQuoted | quoteInQuoted | eatNewline
  deriving DecidableEq

/-- The reader: fields of the record so far, characters of the field so far, state. -/
structure CsvState where
  fields : List Str
  cur : Str
  mode : CsvMode

/-- `parse_reset` -/
def CsvState.init : CsvState := ⟨[], [], .startRecord⟩

/-- `parse_save_field` -/
def CsvState.save (s : CsvState) (m : CsvMode) : CsvState := ⟨s.fields ++ [s.cur], [], m⟩

/-- `parse_add_char` -/
def CsvState.add (s : CsvState) (c : Char) (m : CsvMode) : Except Exn CsvState :=
  if s.cur.length < csvLimit then .ok ⟨s.fields, s.cur ++ [c], m⟩ else .error csvError

/-- `parse_process_char` at the start of a field. -/
def csvStartField (s : CsvState) (c : Char) : Except Exn CsvState :=
  if c = '\n' ∨ c = '\r' then .ok (s.save .eatNewline)
  else if c = '"' then .ok { s with mode := .inQuoted }
  else if c = ',' then .ok (s.save .startField)
  else s.add c .inField

/-- `parse_process_char` for a character of a line; a NUL character is refused (Reader_iternext). -/
def csvChar (s : CsvState) (c : Char) : Except Exn CsvState :=
  if c = Char.ofNat 0 then .error csvError
  else match s.mode with
    | .startRecord => if c = '\n' ∨ c = '\r' then .ok { s with mode := .eatNewline } else csvStartField s c
    | .startField => csvStartField s c
    | .inField =>
      if c = '\n' ∨ c = '\r' then .ok (s.save .eatNewline)
      else if c = ',' then .ok (s.save .startField)
      else s.add c .inField
    | .inQuoted => if c = '"' then .ok { s with mode := .quoteInQuoted } else s.add c .inQuoted
    | .quoteInQuoted =>
      if c = '"' then s.add c .inQuoted
      else if c = ',' then .ok (s.save .startField)
      else if c = '\n' ∨ c = '\r' then .ok (s.save .eatNewline)
      else s.add c .inField
    | .eatNewline => if c = '\n' ∨ c = '\r' then .ok s else .error csvError

/-- `parse_process_char` for the end of a line. -/
def csvEol (s : CsvState) : CsvState :=
  match s.mode with
  | .startRecord => s
  | .startField | .inField | .quoteInQuoted => s.save .startRecord
  | .inQuoted => s
  | .eatNewline => { s with mode := .startRecord }

/-- One line. -/
def csvLine : CsvState → Str → Except Exn CsvState
  | s, [] => .ok (csvEol s)
  | s, c :: r => do
    let s' ← csvChar s c
    csvLine s' r

/-- The records the reader yields, lazily: the last one may be an exception (Reader_iternext). -/
def csvRead : CsvState → List Str → List (Except Exn (List Str))
  | s, [] => if s.cur ≠ [] ∨ s.mode = .inQuoted then [.ok (s.fields ++ [s.cur])] else []
  | s, l :: r => match csvLine s l with
    | .error e => [.error e]
    | .ok s' => if s'.mode = .startRecord then .ok s'.fields :: csvRead .init r else csvRead s' r

/-- `text.split('\r\n')` -/
def splitCrlf : Str → List Str
  | [] => [[]]
  | '\r' :: '\n' :: r => [] :: splitCrlf r
  | c :: r => match splitCrlf r with
    | w :: ws => (c :: w) :: ws
    | [] => [[c]]

/-- The loop over the header in Csv.unserialize (csv.py:95-108). -/
def csvHeader (env : Env) (defn : List (Str × Field)) : List Str → Except Exn (List (Str × Field))
  | [] => .ok []
  | c :: r => do
    let f ← csvField env defn c
    match f with
    | some g => do
      let fs ← csvHeader env defn r
      return (c, g) :: fs
    | none => .error (.py .valueError)

/-- The converter of a column (csv.py:99-106) applied to a text that is not empty (csv.py:117-120). -/
def csvConvert (env : Env) (f : Field) (s : Str) : Except Exn Val :=
  if f.type = c!"boolean" then .ok (.bool (s = c!"true"))
  else if f.type = c!"float" then match env.floatOfStr s with
    | some x => .ok (.float x)
    | none => .error (.py .valueError)
  else if f.type = c!"integer" then match parseInt env.u s with
    | some i => .ok (.int i)
    | none => .error (.py .valueError)
  else .ok (.str s)

/-- The loop over the columns of one row (csv.py:112-120); `print` is left out. -/
def csvRecord (env : Env) : List (Val × Val) → List (Str × Field) → List Str → Except Exn (List (Val × Val))
  | d, [], _ => .ok d
  | _, _ :: _, [] => .error (.py .indexError)
  | d, (c, f) :: cs, s :: ss =>
    if s.isEmpty then csvRecord env d cs ss
    else do
      let v ← csvConvert env f s
      csvRecord env (dictSet d (.str c) v) cs ss

/-- The loop over the rows (csv.py:110-124). -/
def csvRecords (env : Env) (cells : List (Str × Field)) : List (Except Exn (List Str)) → Except Exn (List Val)
  | [] => .ok []
  | .error e :: _ => .error e
  | .ok row :: r => do
    let d ← csvRecord env [] cells row
    let l ← csvRecords env cells r
    return .dict d :: l

/-- Csv.unserialize behind the type checks (csv.py:92-124).  A text without any line cannot occur. -/
def csvTable (env : Env) (defn : List (Str × Field)) (text : Str) : Except Exn Val :=
  match csvRead .init (splitCrlf (stripBy (fun c => c == '\r' || c == '\n') text)) with
  | [] => .error (.py (.other 2))
  | .error e :: _ => .error e
  | .ok columns :: rows => do
    let cells ← csvHeader env defn columns
    let l ← csvRecords env cells rows
    return .list l

/-- Csv.unserialize (csv.py:83-124).  Simplification: a list of polymorphic structures, whose variants are plain dicts
without the attribute `structural`, is always refused with AttributeError. -/
def csvUnserialize (env : Env) (text : Str) : Field → Except Exn Val
  | .sequence _ item _ _ _ => match resolve env item with
    | some (.structure _ defn _ _) => csvTable env defn text
    | some (.poly ..) => .error (.py .attributeError)
    | _ => .error (.py .typeError)
  | _ => .error (.py .typeError)

end Scheme
