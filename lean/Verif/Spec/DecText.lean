import Verif.Model.Str
import Verif.Model.Val

/-! Independent grammar of decimal numbers and their order. -/

namespace Scheme

/-- The exponent part: nothing, or `E`/`e`, an optional sign and digits. -/
inductive ExpText : Str → Int → Prop
  | none : ExpText [] 0
  | bare {m : Char} {ds : List Nat} : (m = 'E' ∨ m = 'e') → ds ≠ [] → (∀ d ∈ ds, d < 10) →
      ExpText (m :: ds.map fun d => Char.ofNat (48 + d)) (ds.foldl (fun a d => a * 10 + d) 0 : Nat)
  | plus {m : Char} {ds : List Nat} : (m = 'E' ∨ m = 'e') → ds ≠ [] → (∀ d ∈ ds, d < 10) →
      ExpText (m :: '+' :: ds.map fun d => Char.ofNat (48 + d)) (ds.foldl (fun a d => a * 10 + d) 0 : Nat)
  | minus {m : Char} {ds : List Nat} : (m = 'E' ∨ m = 'e') → ds ≠ [] → (∀ d ∈ ds, d < 10) →
      ExpText (m :: '-' :: ds.map fun d => Char.ofNat (48 + d)) (-(ds.foldl (fun a d => a * 10 + d) 0 : Nat))

/-- `t` spells the decimal with the given sign, coefficient and exponent: an optional sign, digits with
an optional point, an optional exponent part. -/
def DecText (t : Str) (neg : Bool) (coeff : Nat) (exp : Int) : Prop :=
  ∃ (sg : Str) (a b : List Nat) (pt : Bool) (x : Str) (e : Int),
    t = sg ++ (a.map fun d => Char.ofNat (48 + d)) ++ (if pt then ['.'] else []) ++
      (b.map fun d => Char.ofNat (48 + d)) ++ x ∧
    (neg = true ∧ sg = ['-'] ∨ neg = false ∧ (sg = [] ∨ sg = ['+'])) ∧
    (∀ d ∈ a, d < 10) ∧ (∀ d ∈ b, d < 10) ∧ (a ≠ [] ∨ b ≠ []) ∧ (pt = false → b = []) ∧
    ExpText x e ∧ coeff = (a ++ b).foldl (fun acc d => acc * 10 + d) 0 ∧ exp = e - b.length

/-- `±coeff * 10 ^ exp`, scaled by `10 ^ k` with `k` large enough to be an integer. -/
def scaled (neg : Bool) (coeff : Nat) (exp : Int) (k : Nat) : Int :=
  (if neg then -1 else 1) * (coeff * 10 ^ (exp + k).toNat)

/-- The order of decimals, infinities included. -/
def DecLe : Dec → Dec → Prop
  | .fin n c e, .fin n' c' e' =>
    scaled n c e (e.natAbs + e'.natAbs) ≤ scaled n' c' e' (e.natAbs + e'.natAbs)
  | .inf true, .fin .. => True
  | .inf false, .fin .. => False
  | .fin .., .inf n => n = false
  | .inf n, .inf m => n = true ∨ m = false
  | _, _ => False

end Scheme
