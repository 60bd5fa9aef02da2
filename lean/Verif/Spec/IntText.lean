import Verif.Model.Process
import Verif.Spec.Chars

/-! What `int()` makes of values that are not integers, and `float()` of values that are not floats. -/

namespace Scheme

/-- Decimal digits, single underscores allowed between them. -/
inductive DigitText (u : Chars) : Str → List Nat → Prop
  | one {c d} : DigitChar u c d → DigitText u [c] [d]
  | cons {c d s ds} : DigitChar u c d → DigitText u s ds → DigitText u (c :: s) (d :: ds)
  | under {c d s ds} : DigitChar u c d → DigitText u s ds → DigitText u (c :: '_' :: s) (d :: ds)

/-- The text, apart from white space around it, is an integer in decimal notation. -/
def IntText (u : Chars) (s : Str) (i : Int) : Prop :=
  ∃ a b sign body ds, s = a ++ (sign ++ body) ++ b ∧ (∀ c ∈ a, isSpace u c = true) ∧ (∀ c ∈ b, isSpace u c = true) ∧
    (∀ c, (sign ++ body).head? = some c → isSpace u c = false) ∧ (∀ c, (sign ++ body).getLast? = some c → isSpace u c = false) ∧
    DigitText u body ds ∧
    ((sign = [] ∨ sign = ['+']) ∧ i = (ds.foldl (fun acc d => acc * 10 + d) 0 : Nat) ∨
      sign = ['-'] ∧ i = -((ds.foldl (fun acc d => acc * 10 + d) 0 : Nat) : Int))

/-- `i` is `q` without its fractional part. -/
def Truncated (q : Rat) (i : Int) : Prop :=
  (0 ≤ q → (i : Rat) ≤ q ∧ q < i + 1) ∧ (q < 0 → q ≤ (i : Rat) ∧ (i : Rat) - 1 < q)

/-- `m` is `c * 10 ^ e` without its fractional part. -/
def TruncatedScaled (c : Nat) (e : Int) (m : Nat) : Prop :=
  (0 ≤ e → m = c * 10 ^ e.natAbs) ∧ (e < 0 → m * 10 ^ e.natAbs ≤ c ∧ c < (m + 1) * 10 ^ e.natAbs)

/-- `int(v)` is `i`. -/
inductive IntOf (u : Chars) : Val → Int → Prop
  | int {i} : IntOf u (.int i) i
  | float {q i} : Truncated q i → IntOf u (.float (.fin q)) i
  | text {s i} : IntText u s i → IntOf u (.str s) i
  | bytes {b : List Byte} {i} : (∀ x ∈ b, x.val < 128) → IntText u (b.map fun x => Char.ofNat x.val) i → IntOf u (.bytes b) i
  | positive {c e} {m : Nat} : TruncatedScaled c e m → IntOf u (.decimal (.fin false c e)) m
  | negative {c e} {m : Nat} : TruncatedScaled c e m → IntOf u (.decimal (.fin true c e)) (-(m : Int))

/-- `float(v)` is `x`: what the environment makes of integers and texts (also those of bytes and finite decimals),
booleans as 0.0 and 1.0, infinite decimals and NaNs as themselves. -/
inductive FloatOf (env : Env) : Val → PyFloat → Prop
  | float {x} : FloatOf env (.float x) x
  | int {i x} : env.floatOfInt i = some x → FloatOf env (.int i) x
  | true : FloatOf env (.bool true) (.fin 1)
  | false : FloatOf env (.bool false) (.fin 0)
  | text {s x} : env.floatOfStr s = some x → FloatOf env (.str s) x
  | bytes {b : List Byte} {x} : (∀ y ∈ b, y.val < 128) → env.floatOfStr (b.map fun y => Char.ofNat y.val) = some x →
      FloatOf env (.bytes b) x
  | decimal {n c e x} : env.floatOfStr (decStr (.fin n c e)) = some x → FloatOf env (.decimal (.fin n c e)) x
  | infinite {n} : FloatOf env (.decimal (.inf n)) (.inf n)
  | nan : FloatOf env (.decimal .nan) .nan

end Scheme
