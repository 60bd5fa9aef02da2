import Verif.Lemmas.Heap

/-! What reading a description may do to objects. -/

namespace Scheme

/-- The dict with these entries has the key `fieldtype`. -/
def HasType (d : List (HVal × HVal)) : Prop := ∃ x, (HVal.atom (.str c!"fieldtype"), x) ∈ d

/-- The entries but that of `fieldtype`. -/
def dropType : List (HVal × HVal) → List (HVal × HVal)
  | [] => []
  | (.atom (.str s), x) :: r => if s = c!"fieldtype" then r else (.atom (.str s), x) :: dropType r
  | e :: r => e :: dropType r

/-- No dict has the key `fieldtype` twice. -/
def OneType (h : Heap) : Prop := ∀ (i : Nat) (d : List (HVal × HVal)), h[i]? = some (.dict d) → ¬ HasType (dropType d)

/-- The container at this address is met in the object: it is the object, or an item or a value in a container met. -/
inductive MetIn (h : Heap) : HVal → Nat → Prop
  | here {a} : MetIn h (.ref a) a
  | list {a l x i} : h[a]? = some (.list l) → x ∈ l → MetIn h x i → MetIn h (.ref a) i
  | tuple {a l x i} : h[a]? = some (.tuple l) → x ∈ l → MetIn h x i → MetIn h (.ref a) i
  | dict {a d k x i} : h[a]? = some (.dict d) → (k, x) ∈ d → MetIn h x i → MetIn h (.ref a) i

/-- All that happened is that dicts at addresses in `S` lost the entry `fieldtype`. -/
def LostTypes (h h' : Heap) (S : Nat → Prop) : Prop :=
  ∀ i : Nat, h'[i]? = h[i]? ∨ (S i ∧ ∃ d, HasType d ∧ h[i]? = some (.dict d) ∧ h'[i]? = some (.dict (dropType d)))

mutual
/-- The object is this value, and the dicts met in it which have `fieldtype` are at these addresses, in this order.
Keys are read off the cells at addresses in `P`. -/
inductive Described (h : Heap) (P : Nat → Prop) : HVal → Val → List Nat → Prop
  | atom {v} : v.isAtom = true → Described h P (.atom v) v []
  | list {a l vs m} : h[a]? = some (.list l) → DescribedL h P l vs m → Described h P (.ref a) (.list vs) m
  | tuple {a l vs m} : h[a]? = some (.tuple l) → DescribedL h P l vs m → Described h P (.ref a) (.tuple vs) m
  | plain {a d vs m} : h[a]? = some (.dict d) → ¬ HasType d → DescribedD h P d vs m → Described h P (.ref a) (.dict vs) m
  | field {a d vs m} : h[a]? = some (.dict d) → HasType d → DescribedD h P d vs m → Described h P (.ref a) (.dict vs) (a :: m)
/-- The same for the items of a list or tuple. -/
inductive DescribedL (h : Heap) (P : Nat → Prop) : List HVal → List Val → List Nat → Prop
  | nil : DescribedL h P [] [] []
  | cons {x v l vs m m'} : Described h P x v m → DescribedL h P l vs m' → DescribedL h P (x :: l) (v :: vs) (m ++ m')
/-- The same for the entries of a dict. -/
inductive DescribedD (h : Heap) (P : Nat → Prop) : List (HVal × HVal) → List (Val × Val) → List Nat → Prop
  | nil : DescribedD h P [] [] []
  | cons {k x vk v d vs m m'} : Depicts (part h P) k vk → Described h P x v m → DescribedD h P d vs m' →
      DescribedD h P ((k, x) :: d) ((vk, v) :: vs) (m ++ m')
end

/-- The heap after the dicts at these addresses have lost `fieldtype`, and nothing else has happened. -/
def WithoutTypes (l : List Nat) (h h' : Heap) : Prop :=
  ∀ i : Nat, (i ∈ l → ∃ d, h[i]? = some (.dict d) ∧ h'[i]? = some (.dict (dropType d))) ∧ (i ∉ l → h'[i]? = h[i]?)

mutual
/-- What is left of a description: the same, without `fieldtype` in any of its dicts. -/
def leftOver : Val → Val
  | .list l => .list (leftOverL l)
  | .tuple l => .tuple (leftOverL l)
  | .dict d => .dict (leftOverD d)
  | v => v
def leftOverL : List Val → List Val
  | [] => []
  | v :: r => leftOver v :: leftOverL r
def leftOverD : List (Val × Val) → List (Val × Val)
  | [] => []
  | (k, v) :: r => if pyEq (.str c!"fieldtype") k then leftOverD r else (k, leftOver v) :: leftOverD r
end

end Scheme
