import Verif.Model.Describe

/-! Describing fields with additional parameters: the `parameters` argument of `describe` (scheme/field.py:276-325 and the
`describe` methods of the field classes, which all pass it on). -/

namespace Scheme

/-- The additional parameters asked for: what the attributes of fields are, which objects are identical (`is` is not
determined by the values, so it is any relation), and the names with their defaults, in the order of the dict. -/
structure Further where
  outer : Outer
  same : Val → Val → Bool
  params : List (Str × Val)

/-- The loop over `parameters` (field.py:306-316, second source): parameter, value of the attribute and default. -/
def descExtra (env : Env) (same : Val → Val → Bool) (verbose : Bool) (skip : List Str) :
    List (Str × Val × Val) → Desc → Except Exn Desc
  | [], d => .ok d
  | (name, v, dflt) :: r, d =>
    if skip.contains name || v.isNone || (!verbose && same v dflt) then descExtra env same verbose skip r d
    else do
      let d' ← descSet env name v d
      descExtra env same verbose skip r d'

/-- Field.describe (field.py:276-325) of the field `f` with all arguments. -/
def descBaseW (env : Env) (w : Further) (verbose : Bool) (f : Field) (type : Str) (c : Common) (structural : Bool)
    (table : List (Str × Val × Val)) (over : List (Str × Val)) : Except Exn Val := do
  let d ← descAspects env c.aspects [(c!"fieldtype", .str type)]
  let d ← descTable env verbose (over.map (·.1)) (baseTable c structural ++ table) d
  let d ← descExtra env w.same verbose (over.map (·.1)) (w.params.map fun e => (e.1, attrOf w.outer f e.1, e.2)) d
  let d ← descOver env verbose over d
  return Desc.val d

/-- One call of `describe(parameters, verbose)`: date.py:56-63, datetime.py:62-69, decimal.py:58-65, time.py:52-59,
sequence.py:73-79, map.py:77-88, tuple.py:53-66, union.py:47-52, structure.py:144-168 and 511-516.  Simplification as for
`describeStep`. -/
def describeStepW (env : Env) (w : Further) (verbose : Bool) (rec : DescRec) (proc : Proc) : DescRec
  | .leaf c k => descBaseW env w verbose (.leaf c k) (leafType k) c false (leafTable k) (leafOver env k)
  | .sequence c item mn mx u => do
    let default ← descSeqDefault env proc item c.default
    let item' ← descChild env rec item
    descBaseW env w verbose (.sequence c item mn mx u) c!"sequence" c true
      [(c!"min_length", natV mn, .none), (c!"max_length", natV mx, .none), (c!"unique", .bool u, .bool false)]
      [(c!"item", item'), (c!"default", default)]
  | .map c key value req => do
    let default ← descMapDefault env proc value c.default
    let value' ← descChild env rec value
    let key' ← descKey rec key
    descBaseW env w verbose (.map c key value req) c!"map" c true [(c!"required_keys", listV req, .none)]
      ([(c!"value", value'), (c!"default", default)] ++ key')
  | .tuple c values => do
    let values' ← descList env rec values
    let default ← descTupDefault env proc values c.default
    descBaseW env w verbose (.tuple c values) c!"tuple" c true [] [(c!"values", .list values'), (c!"default", default)]
  | .union c fields => do
    let fields' ← descList env rec fields
    descBaseW env w verbose (.union c fields) c!"union" c true [] [(c!"fields", .list fields')]
  | .structure c defn strict ko => do
    let m ← descDefn env rec defn
    let default ← descStructDefault env defn c.default
    descBaseW env w verbose (.structure c defn strict ko) c!"structure" c true [(c!"strict", .bool strict, .bool true)]
      [(c!"default", default), (c!"polymorphic_on", .none), (c!"structure", .dict m)]
  | .poly c disc variants strict ko => do
    let m ← descVariants env rec disc variants []
    let on ← rec disc
    let default ← descPolyDefault env disc variants c.default
    descBaseW env w verbose (.poly c disc variants strict ko) c!"structure" c true [(c!"strict", .bool strict, .bool true)]
      [(c!"default", default), (c!"polymorphic_on", on), (c!"structure", .dict m)]
  | .undef _ => .error (.py .attributeError)

/-- `field.describe(parameters, verbose)` with `n` levels of call depth available. -/
def describeW (env : Env) (w : Further) (verbose : Bool) : Nat → DescRec
  | 0 => fun _ => .error (.py .recursionError)
  | n + 1 => describeStepW env w verbose (describeW env w verbose n) (process env n)

end Scheme
