import Verif.Model.Str

/-! Names of objects (scheme/util.py:46-104). -/

namespace Scheme

/-- The outcome of `__import__(path, None, None, names)` with names to import: the module at the end of the path; an
ImportError whose text begins with `No module named`; any other exception (a module that fails while it is executed, an
empty path). -/
inductive Loaded (α : Type)
  | found (m : α)
  | missing
  | failed

/-- What an object is as far as `identify_object` can tell: a module, a class, or something else, of which
`inspect.getmodule` may know the module (its name and its `__dict__`) and which may be hashable. -/
inductive ObjKind (α : Type)
  | module (name : Str)
  | cls (module name : Str)
  | other (hashable : Bool) (module : Option (Str × List (Str × α)))

/-- The modules and objects there are.  `same` is `==`, which decides what is found in a cache.  Simplification: importing
and looking up attributes always give the same outcome (the modules have all been imported before). -/
structure Modules (α : Type) where
  load : Str → Loaded α
  attr : α → Str → Option α
  kind : α → ObjKind α
  same : α → α → Bool

variable {α : Type}

/-- `for attr in attrs: target = getattr(target, attr)` (util.py:77-78, 93-94); `none` is an exception. -/
def Modules.attrs (w : Modules α) : α → List Str → Option α
  | o, [] => some o
  | o, a :: r => (w.attr o a).bind fun o' => w.attrs o' r

/-- The loop of import_object (util.py:81-98).  The path is represented by its segments, the last one first: `rpartition`
splits off the last segment; a path without segments, or with one that is empty, is the empty text. -/
def Modules.search (w : Modules α) : List Str → List Str → Option α
  | [], _ => none
  | back :: front, attrs =>
    match w.load (joinStr c!"." (back :: front).reverse) with
    | .found m => w.attrs m attrs
    | .failed => none
    | .missing => if front = [] ∨ front = [[]] then none else w.search front (back :: attrs)

/-- import_object (util.py:70-104); `none` is `ImportError(path)`, which every exception becomes. -/
def Modules.importObject (w : Modules α) (path : Str) : Option α :=
  if ':' ∈ path then
    match splitOn ':' path with
    | [path, attr] => match w.load path with
      | .found m => w.attrs m (splitOn '.' attr)
      | _ => none
    | _ => none
  else if '.' ∈ path then w.search (splitOn '.' path).reverse []
  else match w.load path with
    | .found m => some m
    | _ => none

/-- The cache of `identify_object`. -/
abbrev NameCache (α : Type) := List (α × Str)

/-- identify_object (util.py:46-68), with the cache after the call; `none` is a TypeError.  `cache[obj]` of an object
that cannot be hashed raises one as well. -/
def Modules.identify [DecidableEq α] (w : Modules α) (cache : NameCache α) (o : α) : Option Str × NameCache α :=
  match w.kind o with
  | .module name => (some name, cache)
  | .cls module name => (some (if module = c!"__main__" then name else module ++ '.' :: name), cache)
  | .other hashable module =>
    if !hashable then (none, cache)
    else match cache.find? fun e => w.same o e.1 with
      | some e => (some e.2, cache)
      | none => match module with
        | none => (none, cache)
        | some (name, entries) => match entries.find? fun e => decide (e.2 = o) with
          | some e => (some (name ++ '.' :: e.1), (o, name ++ '.' :: e.1) :: cache)
          | none => (none, cache)

/-- A series of calls of `identify_object`, beginning with the given cache. -/
def Modules.identifyAll [DecidableEq α] (w : Modules α) : NameCache α → List α → NameCache α
  | cache, [] => cache
  | cache, o :: r => w.identifyAll (w.identify cache o).2 r

end Scheme
