import Verif.Spec.Schema

/-! Concrete environment and schemas used by the non-vacuity examples. -/

namespace Scheme.Ex

/-- Unicode data that knows no non-ASCII character. -/
def chars : Chars where
  uspace _ := false
  uword _ := false
  udigit _ := none
  ulower c := [c]

/-- An environment with ASCII unicode data, UTC-only zones and no user callables. -/
def env : Env where
  u := chars
  defs _ := none
  pre _ v := .ok v
  pat _ _ := true
  floatOfInt i := some (.fin i)
  floatOfStr _ := none
  decOfFloat _ := .nan
  decOfTuple _ := none
  astz d tz := .ok { d with tz := some tz }
  padYear := false
  fmtFloat _ := []
  repr _ := []
  str _ := []
  importObj _ := none
  identify _ := none
  fieldType _ := []
  describe _ := .error .cannotDescribe
  reconstruct _ := none
  surrSerialize _ := .error .cannotDescribe
  surrDict _ := []
  surrUnserialize _ := .error .cannotDescribe

def int : Field := .leaf {} (.integer none none)
def text : Field := .leaf {} (.text none none none true)

end Scheme.Ex
