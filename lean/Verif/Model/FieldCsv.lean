import Verif.Model.Csv
import Verif.Model.FieldFormat

namespace Scheme

/-- Csv (formats/csv.py:16-124) writes and reads by the schema; `columns` and `path` are parameters of its `serialize`. -/
def csvOps (env : Env) (columns : ColumnsArg) (path : Option Str) : FormatOps where
  write v f := csvSerialize env v f columns path
  read t f := csvUnserialize env t f

end Scheme
