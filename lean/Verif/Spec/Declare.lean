import Verif.Model.Describe
import Verif.Spec.DateText
import Verif.Spec.DecRead

/-! What the keyword arguments of a declaration such as `Integer(minimum=3, nonnull=True)` say. -/

namespace Scheme

/-- The keyword `k` is given the value `v`; giving None is the same as not giving it. -/
def Gives (args : Args) (k : Str) (v : Val) : Prop := args.lookup k = some (.val v) ∧ v ≠ .none

/-- The flag `k` is given and true. -/
def Sets (args : Args) (k : Str) : Prop := ∃ a, args.lookup k = some a ∧ ∀ v, a = .val v → v.truthy = true

/-- An int; True and False are ints. -/
def IntGiven (v : Val) (i : Int) : Prop := v = .int i ∨ (v = .bool true ∧ i = 1) ∨ (v = .bool false ∧ i = 0)

/-- A length: an int that is not negative. -/
def LengthGiven (v : Val) (n : Nat) : Prop := IntGiven v n

/-- A date, or its text. -/
def DateGiven (env : Env) (v : Val) (d : PDate) : Prop :=
  v = .date d ∨ ∃ s, v = .str s ∧ DateText env.u s d ∧ CalendarDate d

/-- A time, or its text. -/
def TimeGiven (env : Env) (v : Val) (t : PTime) : Prop :=
  v = .time t ∨ ∃ s, v = .str s ∧ TimeText env.u s t ∧ ClockTime t

/-- A decimal, or its text. -/
def DecGiven (env : Env) (v : Val) (d : Dec) : Prop := v = .decimal d ∨ ∃ s, v = .str s ∧ DecRead env.u s d

/-- Arguments that hold no fields and none of the things the model does not represent: callables, further aspects, own
error messages, a name that is no text. -/
structure Ordinary (args : Args) : Prop where
  keys : ∀ e ∈ args, e.1 ≠ []
  vals : ∀ e ∈ args, ∃ v, e.2 = .val v
  name : ∀ v, Gives args c!"name" v → ∃ s, v = .str s
  inst : ∀ v, ¬ Gives args c!"instantiator" v
  ext : ∀ v, ¬ Gives args c!"extractor" v
  pre : ∀ v, ¬ Gives args c!"preprocessor" v
  aspects : ∀ v, ¬ Gives args c!"aspects" v
  errors : ¬ Sets args c!"errors"

/-- The value a declared constant allows. -/
def MeetsConstant (args : Args) (v : Val) : Prop := ∀ k, Gives args c!"constant" k → pyEq v k = true

/-- `nonempty` without a `min_length` asks for one character (or byte) at least. -/
def MeetsLength (args : Args) (n : Nat) : Prop :=
  (∀ b m, Gives args c!"min_length" b → LengthGiven b m → m ≤ n) ∧
  (∀ b m, Gives args c!"max_length" b → LengthGiven b m → n ≤ m) ∧
  (Sets args c!"nonempty" → (∀ b, ¬ Gives args c!"min_length" b) → 1 ≤ n)

/-- None, a boolean, a number, a text, a list, a tuple or a dict (which includes surrogates): what the library takes as
needing no conversion. -/
def Native (v : Val) : Prop :=
  v = .none ∨ (∃ b, v = .bool b) ∨ (∃ i, v = .int i) ∨ (∃ x, v = .float x) ∨ (∃ s, v = .str s) ∨ (∃ l, v = .list l) ∨
  (∃ l, v = .tuple l) ∨ (∃ d, v = .dict d) ∨ (∃ h, v = .surr h)

/-- `v` equals one of the values listed under the keyword `k`, or one of the words of a text given for it. -/
def OneOf (args : Args) (k : Str) (v : Val) : Prop :=
  (∃ l m, (Gives args k (.list l) ∨ Gives args k (.tuple l)) ∧ m ∈ l ∧ pyEq v m = true) ∨
  ∃ s ws, Gives args k (.str s) ∧ s = joinStr [' '] ws ∧ (∀ t ∈ ws, ' ' ∉ t) ∧ ∃ t ∈ ws, pyEq v (.str t) = true

end Scheme
