import Verif.Model.Str
import Verif.Model.Val

/-! What formatted values must and must not show. -/

namespace Scheme.Fmt

mutual
/-- Two values that differ at most in what stands under hidden keys, and in the order of the entries of dicts. -/
inductive Alike (hid : Val → Prop) : Val → Val → Prop
  | refl {v} : Alike hid v v
  | trans {a b c} : Alike hid a b → Alike hid b c → Alike hid a c
  | list {l l'} : AlikeL hid l l' → Alike hid (.list l) (.list l')
  | tuple {l l'} : AlikeL hid l l' → Alike hid (.tuple l) (.tuple l')
  | dict {d d'} : AlikeD hid d d' → Alike hid (.dict d) (.dict d')
  | perm {d d'} : d.Perm d' → (d.Pairwise fun a b => pyEq a.1 b.1 = false) → Alike hid (.dict d) (.dict d')
inductive AlikeL (hid : Val → Prop) : List Val → List Val → Prop
  | nil : AlikeL hid [] []
  | cons {v v' l l'} : Alike hid v v' → AlikeL hid l l' → AlikeL hid (v :: l) (v' :: l')
inductive AlikeD (hid : Val → Prop) : List (Val × Val) → List (Val × Val) → Prop
  | nil : AlikeD hid [] []
  | hidden {k v v' d d'} : hid k → AlikeD hid d d' → AlikeD hid ((k, v) :: d) ((k, v') :: d')
  | shown {k v v' d d'} : Alike hid v v' → AlikeD hid d d' → AlikeD hid ((k, v) :: d) ((k, v') :: d')
end

/-- `x` is the value, or a part of it that is not under a hidden key. -/
inductive Shown (hid : Val → Prop) (x : Val) : Val → Prop
  | here : Shown hid x x
  | list {l v} : v ∈ l → Shown hid x v → Shown hid x (.list l)
  | tuple {l v} : v ∈ l → Shown hid x v → Shown hid x (.tuple l)
  | dict {d k v} : (k, v) ∈ d → ¬ hid k → Shown hid x v → Shown hid x (.dict d)

/-- Neither a list, a tuple nor a dict. -/
def Atom : Val → Prop
  | .list _ | .tuple _ | .dict _ => False
  | _ => True

def IsText (k : Val) : Prop := ∃ s, k = .str s
def IsNumber (k : Val) : Prop := (∃ i, k = .int i) ∨ ∃ b, k = .bool b

/-- Keys that can be sorted. -/
def Sortable (ks : List Val) : Prop := ks.length ≤ 1 ∨ (∀ k ∈ ks, IsText k) ∨ ∀ k ∈ ks, IsNumber k

/-- A text that stays what it is when white space around it, and commas after it, are removed. -/
def Solid (space : Char → Bool) (s : Str) : Prop :=
  (∃ a r, s = a :: r ∧ space a = false) ∧ ∃ b r, s = r ++ [b] ∧ space b = false ∧ b ≠ ','

/-! The literal that is written -/

/-- Spaces and line breaks. -/
def Blanks (w : Str) : Prop := ∀ c ∈ w, c = ' ' ∨ c = '\n'

/-- Parts one after the other: commas between them, perhaps one after the last, blanks anywhere between. -/
inductive Listed : List Str → Str → Prop
  | nil {w} : Blanks w → Listed [] w
  | last {w p w'} : Blanks w → Blanks w' → Listed [p] (w ++ p ++ w')
  | cons {w p ps t} : Blanks w → Listed ps t → Listed (p :: ps) (w ++ p ++ c!"," ++ t)

/-- The first key does not come after the second: texts by their characters, numbers by size. -/
inductive NotAfter : Val → Val → Prop
  | text {s t : Str} : s ≤ t → NotAfter (.str s) (.str t)
  | int {i j} : i ≤ j → NotAfter (.int i) (.int j)
  | intBool {i b} : i ≤ (if b then 1 else 0) → NotAfter (.int i) (.bool b)
  | boolInt {b i} : (if b then 1 else 0) ≤ i → NotAfter (.bool b) (.int i)
  | bool {a b} : (a = true → b = true) → NotAfter (.bool a) (.bool b)

mutual
/-- The text is the literal of the value, given the texts of simple values and of keys: brackets around what the items
or entries are written as. The entries of a dict that fit on a line come before the others, and each of these groups
comes in the order of the keys. Under a hidden key there is only a mark. -/
inductive Literal (repr : Val → Str) (key : Val → Str) (hid : Val → Prop) : Val → Str → Prop
  | atom {x} : Atom x → Literal repr key hid x (repr x)
  | list {l ts t} : LiteralL repr key hid l ts → Listed ts t → Literal repr key hid (.list l) (c!"[" ++ t ++ c!"]")
  | tuple {l ts t} : LiteralL repr key hid l ts → Listed ts t → Literal repr key hid (.tuple l) (c!"(" ++ t ++ c!")")
  | dict {d es es' ts ts' t} : d.Perm (es ++ es') → LiteralD repr key hid es ts → LiteralD repr key hid es' ts' →
      (∀ x ∈ ts, '\n' ∉ x) → (∀ x ∈ ts', '\n' ∈ x) → es.Pairwise (fun a b => NotAfter a.1 b.1) →
      es'.Pairwise (fun a b => NotAfter a.1 b.1) → Listed (ts ++ ts') t → Literal repr key hid (.dict d) (c!"{" ++ t ++ c!"}")
inductive LiteralL (repr : Val → Str) (key : Val → Str) (hid : Val → Prop) : List Val → List Str → Prop
  | nil : LiteralL repr key hid [] []
  | cons {v t l ts} : Literal repr key hid v t → LiteralL repr key hid l ts → LiteralL repr key hid (v :: l) (t :: ts)
inductive LiteralD (repr : Val → Str) (key : Val → Str) (hid : Val → Prop) : List (Val × Val) → List Str → Prop
  | nil : LiteralD repr key hid [] []
  | hidden {k v d ts} : hid k → LiteralD repr key hid d ts →
      LiteralD repr key hid ((k, v) :: d) ((repr (.str (key k)) ++ c!": ***MASKED***") :: ts)
  | shown {k v t d ts} : ¬ hid k → Literal repr key hid v t → LiteralD repr key hid d ts →
      LiteralD repr key hid ((k, v) :: d) ((repr (.str (key k)) ++ c!": " ++ t) :: ts)
end

end Scheme.Fmt
