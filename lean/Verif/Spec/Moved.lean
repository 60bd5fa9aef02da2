import Verif.Model.Process

/-! The same outcome at another place: only the locations of errors differ. -/

namespace Scheme

mutual
/-- `w` is `v` with the errors in it moved from below `p` to below `q`. -/
inductive MovedV (p q : List Str) : Val → Val → Prop
  | same (v) : MovedV p q v v
  | exc {cls i errs st st' v} : MovedV p q st st' → MovedV p q (.exc cls (p ++ i) errs st v) (.exc cls (q ++ i) errs st' v)
  | list {l l'} : MovedL p q l l' → MovedV p q (.list l) (.list l')
  | dict {d d'} : MovedD p q d d' → MovedV p q (.dict d) (.dict d')
/-- The same for lists, item by item. -/
inductive MovedL (p q : List Str) : List Val → List Val → Prop
  | nil : MovedL p q [] []
  | cons {v w l l'} : MovedV p q v w → MovedL p q l l' → MovedL p q (v :: l) (w :: l')
/-- The same for dicts with the same keys. -/
inductive MovedD (p q : List Str) : List (Val × Val) → List (Val × Val) → Prop
  | nil : MovedD p q [] []
  | cons {k v w d d'} : MovedV p q v w → MovedD p q d d' → MovedD p q ((k, v) :: d) ((k, w) :: d')
end

/-- `e'` is the exception `e` moved from below `p` to below `q`: class, entries and offending value are the same. -/
inductive MovedE (p q : List Str) : Exn → Exn → Prop
  | same (e) : MovedE p q e e
  | moved {cls i errs st st' v} : MovedV p q st st' →
      MovedE p q (.structural ⟨cls, p ++ i, errs, st, v⟩) (.structural ⟨cls, q ++ i, errs, st', v⟩)

/-- Two outcomes: results related by `R`, or one exception the other one moved. -/
inductive MovedX {α : Type} (p q : List Str) (R : α → α → Prop) : Except Exn α → Except Exn α → Prop
  | ok {a b} : R a b → MovedX p q R (.ok a) (.ok b)
  | error {e e'} : MovedE p q e e' → MovedX p q R (.error e) (.error e')

/-- The same outcome at another place: the same result, or the same exception with its locations moved. -/
abbrev Moved (p q : List Str) : Except Exn Val → Except Exn Val → Prop := MovedX p q Eq

end Scheme
