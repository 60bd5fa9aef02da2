import Verif.Model.Format

/-! Vocabulary for C46. -/

namespace Scheme

/-- Class number `i` is to be found under the token: it has a name and the token is the class, its name, its mimetype
or one of its extensions that begin with a dot. -/
def Answers (classes : List FormatCls) (i : Nat) (t : FTok) : Prop :=
  ∃ c n, classes[i]? = some c ∧ c.name = some n ∧ n ≠ [] ∧
    (t = .cls i ∨ t = .text n ∨ (∃ m, c.mimetype = some m ∧ m ≠ [] ∧ t = .text m) ∨
      ∃ exts e, c.extensions = some exts ∧ '.' :: e ∈ exts ∧ t = .text ('.' :: e))

/-- The extension of a path: of its last component, from the last dot on, provided anything but dots comes before. -/
def IsExtension (path ext : Str) : Prop :=
  ∃ dir base, path = dir ++ base ∧ '/' ∉ base ∧ (dir = [] ∨ dir.getLast? = some '/') ∧
    ((∃ stem e, base = stem ++ '.' :: e ∧ '.' ∉ e ∧ (∃ c ∈ stem, c ≠ '.') ∧ ext = '.' :: e) ∨
     ((∀ stem e, base = stem ++ '.' :: e → '.' ∉ e → ∀ c ∈ stem, c = '.') ∧ ext = []))

end Scheme
