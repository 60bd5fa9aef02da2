import Verif.Model.FieldFormat
import Verif.Model.Format

/-! Reading and writing files (scheme/format.py:35-58, 68-85, scheme/field.py:477-482, 535-540). -/

namespace Scheme

/-- The files: path to contents.  Simplification: a path that exists is a file that can be read, and every path but the
empty one can be opened for writing. -/
abbrev Disk := Str → Option Str

/-- The file after writing it (format.py:84-85). -/
def Disk.set (disk : Disk) (path : Str) (text : Str) : Disk := fun p => if p = path then some text else disk p

/-- Reading a file in text mode, format.py:57-58: universal newlines; the encoding is taken to give back what was written,
and writing translates nothing (POSIX). -/
def newlines : Str → Str
  | '\r' :: '\n' :: r => '\n' :: newlines r
  | c :: r => (if c = '\r' then '\n' else c) :: newlines r
  | [] => []

/-- The registry (Format.formats, format.py:28) and the methods of the registered classes. -/
structure Library where
  formats : Formats
  ops : Nat → FormatOps

/-- Format.read (format.py:35-58).  `quiet` asks for False instead of an error when there is no such file. -/
def formatRead (u : Chars) (lib : Library) (disk : Disk) (cls : Option Nat) (path : Str) (format : Option FTok) (schema : Field)
    (quiet : Bool) : Except Exn Val :=
  match (if path = [] then none else disk path) with
  | none => if quiet then .ok (.bool false) else .error (.py .valueError)
  | some text =>
    match chooseFormat u lib.formats cls format path with
    | .error e => .error (.py e)
    | .ok i => (lib.ops i).read (newlines text) schema

/-- Format.write (format.py:68-85): the outcome and the files afterwards.  The file is opened, and thereby emptied, before
the value is serialized.  `open('')` fails (`other 3`). -/
def formatWrite (u : Chars) (lib : Library) (disk : Disk) (cls : Option Nat) (path : Str) (v : Val) (format : Option FTok)
    (schema : Field) : Except Exn Unit × Disk :=
  match chooseFormat u lib.formats cls format path with
  | .error e => (.error (.py e), disk)
  | .ok i =>
    if path = [] then (.error (.py (.other 3)), disk)
    else match (lib.ops i).write v schema with
      | .error e => (.error e, disk.set path [])
      | .ok text => (.ok (), (disk.set path []).set path text)

/-- Field.read (field.py:477-482) -/
def fieldRead (env : Env) (lib : Library) (n : Nat) (f : Field) (disk : Disk) (path : Str) (format : Option FTok) (quiet : Bool) :
    Except Exn Val := do
  let data ← formatRead env.u lib disk none path format f quiet
  process env n f data .inbound true []

/-- Field.write (field.py:535-540) -/
def fieldWrite (env : Env) (lib : Library) (n : Nat) (f : Field) (disk : Disk) (path : Str) (v : Val) (format : Option FTok) :
    Except Exn Unit × Disk :=
  match process env n f v .outbound true [] with
  | .error e => (.error e, disk)
  | .ok s => formatWrite env.u lib disk none path s format f

end Scheme
