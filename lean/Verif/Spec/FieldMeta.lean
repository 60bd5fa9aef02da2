import Verif.Model.FieldMeta

/-! Vocabulary for C47. -/

namespace Scheme

/-- The last value a list of declarations gives to a key. -/
def Declared (l : List (Str × Nat)) (k : Str) (v : Nat) : Prop :=
  ∃ before after, l = before ++ (k, v) :: after ∧ ∀ e ∈ after, e.1 ≠ k

/-- Class `b` is `a` or one of the classes `a` descends from. -/
inductive Descends (decls : List FieldDecl) : Nat → Nat → Prop
  | refl (a : Nat) : Descends decls a a
  | step {a b c : Nat} {d : FieldDecl} : decls[a]? = some d → some b ∈ d.bases → Descends decls b c → Descends decls a c

/-- Every base is defined before the class. -/
def Ordered (decls : List FieldDecl) : Prop := ∀ (i : Nat) (d : FieldDecl), decls[i]? = some d → ∀ b, some b ∈ d.bases → b < i

end Scheme
