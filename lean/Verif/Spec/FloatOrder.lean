import Verif.Model.Val

/-! The order of floats (IEEE 754), written as a relation. -/

namespace Scheme

/-- `x < y` -/
inductive FloatBelow : PyFloat → PyFloat → Prop
  | fin {a b : Rat} : a < b → FloatBelow (.fin a) (.fin b)
  | low {a : Rat} : FloatBelow (.inf true) (.fin a)
  | high {a : Rat} : FloatBelow (.fin a) (.inf false)
  | ends : FloatBelow (.inf true) (.inf false)

end Scheme
