import Verif.Model.Csv
import Verif.Spec.Members

/-! Vocabulary for C42. -/

namespace Scheme

/-- A text without its CR LF sequences, searched from the left. -/
def dropCrlf : Str → Str
  | [] => []
  | '\r' :: '\n' :: r => dropCrlf r
  | c :: r => c :: dropCrlf r

/-- A text that a cell can hold: no NUL character and, apart from CR LF sequences, at most 131072 characters. -/
def CellText (s : Str) : Prop := Char.ofNat 0 ∉ s ∧ (dropCrlf s).length ≤ 131072

/-- `n` is a column of the table: a declared member that is not structural. -/
def Column (env : Env) (defn : List (Str × Field)) (n : Str) (k : Leaf) : Prop :=
  ∃ f c, defn.lookup n = some f ∧ resolve env f = some (.leaf c k)

/-- `n` is among the columns asked for. -/
def Wants (defn : List (Str × Field)) : ColumnsArg → Str → Prop
  | .absent, n => n ∈ defn.map (·.1)
  | .text s, n => n ∈ splitOn ',' s
  | .names [], n => n ∈ defn.map (·.1)
  | .names l, n => n ∈ l

/-- A float whose text is read as the float again and fits in a cell. -/
def FloatText (env : Env) (x : PyFloat) : Prop :=
  env.floatOfStr (env.str (.float x)) = some x ∧ env.str (.float x) ≠ [] ∧ CellText (env.str (.float x)) ∧
    dropCrlf (env.str (.float x)) = env.str (.float x)

/-- Values that a cell of the given type carries. -/
def CellOk (env : Env) (k : Leaf) : Val → Prop
  | .none => True
  | .bool _ => leafType k = c!"boolean"
  | .int i => leafType k = c!"integer" ∧ (intStr i).length ≤ 131072
  | .float x => leafType k = c!"float" ∧ FloatText env x
  | .str s => leafType k ≠ c!"boolean" ∧ leafType k ≠ c!"float" ∧ leafType k ≠ c!"integer" ∧ CellText s
  | _ => False

/-- What is left of a cell: nulls and empty texts vanish, and so do CR LF sequences inside texts. -/
def kept : Option Val → Option Val
  | some .none => none
  | some (.str s) => if dropCrlf s = [] then none else some (.str (dropCrlf s))
  | v => v

/-- The row read back for a row. -/
def RowBack (env : Env) (defn : List (Str × Field)) (cols : ColumnsArg) (r r' : List (Val × Val)) : Prop :=
  (∀ n k, Wants defn cols n → Column env defn n k → given r' n = kept (given r n)) ∧
  (∀ n, ¬ (Wants defn cols n ∧ ∃ k, Column env defn n k) → given r' n = none)

end Scheme
