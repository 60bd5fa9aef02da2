import Verif.Model.Import

/-! What names of objects mean. -/

namespace Scheme

variable {α : Type}

/-- The object reached from another one by attributes. -/
inductive Reaches (w : Modules α) : α → List Str → α → Prop
  | here (o) : Reaches w o [] o
  | step {o a o' r o''} : w.attr o a = some o' → Reaches w o' r o'' → Reaches w o (a :: r) o''

/-- The dotted path with these segments is that of `o`: its longest prefix that can be imported is a module, from which
the remaining segments lead to `o`; all longer prefixes are missing. -/
def Denotes (w : Modules α) (segments : List Str) (o : α) : Prop :=
  ∃ pre post m, segments = pre ++ post ∧ pre ≠ [] ∧ pre ≠ [[]] ∧ w.load (joinStr c!"." pre) = .found m ∧ Reaches w m post o ∧
    ∀ a b, post = a ++ b → a ≠ [] → w.load (joinStr c!"." (pre ++ a)) = .missing

/-- The name of the object `o`, which is neither module nor class, in its module. -/
def NamedIn (w : Modules α) (o : α) (s : Str) : Prop :=
  ∃ module entries name, w.kind o = .other true (some (module, entries)) ∧ s = module ++ '.' :: name ∧ (name, o) ∈ entries

end Scheme
