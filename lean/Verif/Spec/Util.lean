import Verif.Model.Util
import Verif.Spec.Conforms

/-! What the helpers are for. -/

namespace Scheme

/-- A usable dict key: hashable and equal to itself (not NaN). -/
def Key (k : Val) : Prop := hashable k = true ∧ pyEq k k = true

/-- A value whose nested dicts have proper and pairwise different keys, as Python dicts do. -/
inductive Proper : Val → Prop
  | other {v} : (∀ d, v ≠ .dict d) → Proper v
  | dict {d} : (∀ k v, (k, v) ∈ d → Key k) → DistinctKeys d → (∀ k v, (k, v) ∈ d → Proper v) → Proper (.dict d)

/-- The value at a path of keys through nested dicts. -/
def getPath : Val → List Val → Option Val
  | v, [] => some v
  | .dict d, k :: p => (dictGet d k).bind (getPath · p)
  | _, _ :: _ => none

/-- `v` is a dict. -/
def IsDict (v : Val) : Prop := ∃ d, v = .dict d

/-- On the way along `p` there is something that is no dict. -/
def Blocked (v : Val) (p : List Val) : Prop :=
  ∃ q r w, p = q ++ r ∧ r ≠ [] ∧ getPath v q = some w ∧ ¬ IsDict w

/-- The maximal runs of characters that are not `p`. -/
def wordsBy (p : Char → Bool) : Str → List Str
  | [] => []
  | c :: r =>
    if p c then wordsBy p r
    else match r with
      | [] => [[c]]
      | c' :: _ =>
        if p c' then [c] :: wordsBy p r
        else match wordsBy p r with
          | [] => [[c]]
          | w :: t => (c :: w) :: t

end Scheme
