import Verif.Model.Val

/-! The operations of Python that the claims are phrased with, described without computing them. -/

namespace Scheme

/-- The number a value denotes: `False` and `True` are 0 and 1, a decimal is its coefficient shifted by its
exponent. -/
inductive Number : Val → PyFloat → Prop
  | false : Number (.bool false) (.fin 0)
  | true : Number (.bool true) (.fin 1)
  | int {i : Int} : Number (.int i) (.fin i)
  | float {x} : Number (.float x) x
  | decimal {n : Bool} {c : Nat} {e : Int} {q : Rat} : q * (10 : Rat) ^ (-e).toNat = (if n then -1 else 1) * (c : Rat) * (10 : Rat) ^ e.toNat →
      Number (.decimal (.fin n c e)) (.fin q)
  | infinity {n} : Number (.decimal (.inf n)) (.inf n)
  | nan : Number (.decimal .nan) .nan

/-- `a == b`: numbers of any type by what they denote (NaN equals nothing), lists and tuples item by item,
dicts entry by entry in any order, objects by identity, everything else by content within its own type. -/
inductive PyEqual : Val → Val → Prop
  | none : PyEqual .none .none
  | number {a b x} : Number a x → Number b x → x ≠ .nan → PyEqual a b
  | str {s} : PyEqual (.str s) (.str s)
  | bytes {s} : PyEqual (.bytes s) (.bytes s)
  | date {s} : PyEqual (.date s) (.date s)
  | time {s} : PyEqual (.time s) (.time s)
  | datetime {s} : PyEqual (.datetime s) (.datetime s)
  | list {l l'} : l.length = l'.length → (∀ (i : Nat) x y, l[i]? = some x → l'[i]? = some y → PyEqual x y) →
      PyEqual (.list l) (.list l')
  | tuple {l l'} : l.length = l'.length → (∀ (i : Nat) x y, l[i]? = some x → l'[i]? = some y → PyEqual x y) →
      PyEqual (.tuple l) (.tuple l')
  | dict {d d'} (partner : Val × Val → Val × Val) : d.length = d'.length → (∀ e ∈ d, partner e ∈ d') →
      (∀ e ∈ d, PyEqual e.1 (partner e).1) → (∀ e ∈ d, PyEqual e.2 (partner e).2) → PyEqual (.dict d) (.dict d')
  | field {h} : PyEqual (.field h) (.field h)
  | surr {h} : PyEqual (.surr h) (.surr h)
  | obj {h} : PyEqual (.obj h) (.obj h)

/-- Some mutable container has to be hashed. -/
inductive Unhashable : Val → Prop
  | list {l} : Unhashable (.list l)
  | dict {d} : Unhashable (.dict d)
  | surr {h} : Unhashable (.surr h)
  | tuple {l v} : v ∈ l → Unhashable v → Unhashable (.tuple l)

/-- `bool(v)` is False. -/
inductive Falsy : Val → Prop
  | none : Falsy .none
  | zero {v} : Number v (.fin 0) → Falsy v
  | str : Falsy (.str [])
  | bytes : Falsy (.bytes [])
  | list : Falsy (.list [])
  | tuple : Falsy (.tuple [])
  | dict : Falsy (.dict [])

/-- The decimal numeral of a natural number: its digits without leading zeros. -/
inductive Numeral : Nat → Str → Prop
  | digit {n c} : n < 10 → c.toNat = '0'.toNat + n → Numeral n [c]
  | more {n s d c} : 0 < n → d < 10 → Numeral n s → c.toNat = '0'.toNat + d → Numeral (10 * n + d) (s ++ [c])

/-- One character in lower case; `u` says what Unicode has beyond ASCII. -/
inductive LowerChar (u : Chars) : Char → Str → Prop
  | upper {c d} : 'A' ≤ c → c ≤ 'Z' → d.toNat - 'a'.toNat = c.toNat - 'A'.toNat → 'a' ≤ d → LowerChar u c [d]
  | other {c} : c.toNat < 128 → ¬ ('A' ≤ c ∧ c ≤ 'Z') → LowerChar u c [c]
  | foreign {c} : 128 ≤ c.toNat → LowerChar u c (u.ulower c)

/-- A text in lower case. -/
inductive Lowered (u : Chars) : Str → Str → Prop
  | nil : Lowered u [] []
  | cons {c r s t} : LowerChar u c r → Lowered u s t → Lowered u (c :: s) (r ++ t)

/-- `sep.join(parts)` -/
inductive JoinedBy (sep : Str) : List Str → Str → Prop
  | none : JoinedBy sep [] []
  | one {p} : JoinedBy sep [p] p
  | more {p q r s} : JoinedBy sep (q :: r) s → JoinedBy sep (p :: q :: r) (p ++ sep ++ s)

end Scheme
