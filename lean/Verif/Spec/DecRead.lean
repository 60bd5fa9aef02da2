import Verif.Spec.DecText
import Verif.Model.Process
import Verif.Lemmas.Str

/-! What `decimal.Decimal()` makes of values. -/

namespace Scheme

/-- The text consists of decimal digits, which are the given ones. -/
def DigitRun (u : Chars) (s : Str) (ds : List Nat) : Prop := s.map (digitVal u) = ds.map some

/-- An exponent part. -/
inductive ExpRead (u : Chars) : Str → Int → Prop
  | absent : ExpRead u [] 0
  | bare {m s ds} : (m = 'E' ∨ m = 'e') → DigitRun u s ds → ds ≠ [] →
      ExpRead u (m :: s) (ds.foldl (fun a d => a * 10 + d) 0 : Nat)
  | plus {m s ds} : (m = 'E' ∨ m = 'e') → DigitRun u s ds → ds ≠ [] →
      ExpRead u (m :: '+' :: s) (ds.foldl (fun a d => a * 10 + d) 0 : Nat)
  | minus {m s ds} : (m = 'E' ∨ m = 'e') → DigitRun u s ds → ds ≠ [] →
      ExpRead u (m :: '-' :: s) (-(ds.foldl (fun a d => a * 10 + d) 0 : Nat))

/-- A decimal without its sign. -/
inductive DecBody (u : Chars) (neg : Bool) : Str → Dec → Prop
  | whole {a ds x e} : DigitRun u a ds → ds ≠ [] → ExpRead u x e →
      DecBody u neg (a ++ x) (.fin neg (ds.foldl (fun a d => a * 10 + d) 0) e)
  | pointed {a b ds fs x e} : DigitRun u a ds → DigitRun u b fs → (ds ≠ [] ∨ fs ≠ []) → ExpRead u x e →
      DecBody u neg (a ++ '.' :: (b ++ x)) (.fin neg ((ds ++ fs).foldl (fun a d => a * 10 + d) 0) (e - fs.length))
  | infinite {t} : (∀ c r, t = c :: r → digitVal u c = none) → (lower u t = c!"inf" ∨ lower u t = c!"infinity") →
      DecBody u neg t (.inf neg)
  | nan {t p ds} : (∀ c r, t = c :: r → digitVal u c = none) → (lower u t = c!"nan" ++ p ∨ lower u t = c!"snan" ++ p) →
      DigitRun u p ds → DecBody u neg t .nan

/-- The text, apart from white space around it and underscores anywhere, is a decimal. -/
def DecRead (u : Chars) (s : Str) (d : Dec) : Prop :=
  ∃ t, Stripped (isSpace u) s t ∧ ∃ neg sign body, t.filter (· ≠ '_') = sign ++ body ∧
    (neg = true ∧ sign = ['-'] ∨ neg = false ∧ (sign = [] ∨ sign = ['+'])) ∧ DecBody u neg body d

/-- `Decimal(v)` is `d`.  Floats and triples are converted by the environment. -/
inductive DecOf (env : Env) : Val → Dec → Prop
  | decimal {d} : DecOf env (.decimal d) d
  | natural {n : Nat} : DecOf env (.int n) (.fin false n 0)
  | negative {n : Nat} : DecOf env (.int (-(n + 1 : Int))) (.fin true (n + 1) 0)
  | true : DecOf env (.bool true) (.fin false 1 0)
  | false : DecOf env (.bool false) (.fin false 0 0)
  | float {x} : DecOf env (.float x) (env.decOfFloat x)
  | text {s d} : DecRead env.u s d → DecOf env (.str s) d
  | tuple {l d} : env.decOfTuple l = some d → DecOf env (.tuple l) d
  | list {l d} : env.decOfTuple l = some d → DecOf env (.list l) d

end Scheme
