import Verif.Model.Field
import Verif.Model.Errors

/-! `Field.process` and its overrides in the structural fields. -/

namespace Scheme

inductive Phase
  | inbound
  | outbound
  deriving DecidableEq

/-- `field.guaranteed_name` (field.py:246-248) -/
def guaranteedName (f : Field) : Str :=
  match f.name with
  | some (a :: s) => a :: s
  | _ => c!"(" ++ f.type ++ c!")"

/-- `if not ancestry: ancestry = [self.guaranteed_name]` -/
def ancOr (f : Field) (anc : List Str) : List Str :=
  if anc.isEmpty then [guaranteedName f] else anc

/-- Enumeration replaces its ignored values by `None` before the null check
(enumeration.py:69-74). -/
def nullView (f : Field) (v : Val) : Val :=
  match f with
  | .leaf _ (.enumeration _ ignored) => if pyIn v ignored then .none else v
  | _ => v

/-- `_is_null` (field.py:574-579, enumeration.py:69-74) -/
def isNull (f : Field) (v : Val) (anc : List Str) : Except Exn Bool :=
  match f.common? with
  | none => .error (.py .attributeError)
  | some c =>
    if (nullView f v).isNone then
      if c.nonnull then .error (mkErr f .validation anc .none c!"nonnull" []) else .ok true
    else .ok false

/-- `bound is not None and p(bound)`: an optional bound that is violated. -/
def violates {α : Type} (p : α → Bool) : Option α → Bool
  | some m => p m
  | none => false

/-- The same for decimals, whose comparison may raise (`none`). -/
def violatesDec (p : Dec → Option Bool) : Option Dec → Option Bool
  | some m => p m
  | none => some false

/-- `int(value)` for non-boolean values (integer.py:50-51); `none` is any exception. -/
def toInt (env : Env) : Val → Option Int
  | .int i => some i
  | .bool b => some (if b then 1 else 0)
  | .float (.fin q) => some (if q < 0 then -(-q).floor else q.floor)
  | .str s => parseInt env.u s
  | .bytes b =>
    if b.all (·.val < 128) then parseInt env.u (b.map fun x => Char.ofNat x.val) else none
  | .decimal (.fin n c e) =>
    let m : Int := if e < 0 then ((c / 10 ^ e.natAbs : Nat) : Int) else ((c * 10 ^ e.natAbs : Nat) : Int)
    some (if n then -m else m)
  | _ => none

/-- `float(value)` (float.py:47-48); `none` is any exception. -/
def toFloat (env : Env) : Val → Option PyFloat
  | .float x => some x
  | .int i => env.floatOfInt i
  | .bool b => some (.fin (if b then 1 else 0))
  | .str s => env.floatOfStr s
  | .bytes b => if b.all (·.val < 128) then env.floatOfStr (b.map fun x => Char.ofNat x.val) else none
  | .decimal (.fin n c e) => env.floatOfStr (decStr (.fin n c e))
  | .decimal (.inf n) => some (.inf n)
  | .decimal .nan => some .nan
  | _ => none

/-- `decimal(value)` (decimal.py:82-83); `none` is any exception. -/
def toDec (env : Env) : Val → Option Dec
  | .decimal d => some d
  | .int i => some (.fin (i < 0) i.natAbs 0)
  | .bool b => some (.fin false (if b then 1 else 0) 0)
  | .float x => some (env.decOfFloat x)
  | .str s => parseDec env.u s
  | .tuple l => env.decOfTuple l
  | .list l => env.decOfTuple l
  | _ => none

/-- `_unserialize_value` of the leaf fields. -/
def unserializeLeaf (env : Env) (f : Field) (k : Leaf) (v : Val) (anc : List Str) : Except Exn Val :=
  let invalid : Exn := mkErr f .invalidType anc v c!"invalid" []
  match k with
  -- binary.py:47-51; a malformed text raises binascii.Error
  | .binary .. =>
    match v with
    | .bytes b => match b64Decode b with
      | some r => .ok (.bytes r)
      | none => .error (.py .binasciiError)
    | _ => .error invalid
  -- date.py:68-75; isinstance(datetime, date) holds
  | .date .. =>
    match v with
    | .date _ => .ok v
    | .datetime _ => .ok v
    | .str s => match parseDate env.u s with
      | some d => .ok (.date d)
      | none => .error invalid
    | _ => .error invalid
  -- datetime.py:86-94
  | .datetime .. =>
    match v with
    | .datetime _ => .ok v
    | .str s => match parseDateTime env.u s with
      | some d => .ok (.datetime d)
      | none => .error invalid
    | _ => .error invalid
  -- time.py:64-72
  | .time .. =>
    match v with
    | .time _ => .ok v
    | .str s => match parseTime env.u s with
      | some t => .ok (.time t)
      | none => .error invalid
    | _ => .error invalid
  -- decimal.py:78-85
  | .decimal .. =>
    match toDec env v with
    | some d => .ok (.decimal d)
    | none => .error invalid
  -- definition.py:44-49; a Field instance is returned as it is by reconstruct (field.py:63-64)
  | .definition _ =>
    match v with
    | .field _ => .ok v
    | _ => match env.reconstruct v with
      | some h => .ok (.field h)
      | none => .error (mkErr f .validation anc v c!"invalid" [])
  -- error.py:18-25
  | .error =>
    match v with
    | .exc .. => .ok v
    | .tuple [errs, st] => match unserializeErr errs st with
      | .ok x => .ok x
      | .error e => .error (.py e)
    | _ => .error invalid
  -- float.py:46-50
  | .float .. =>
    match toFloat env v with
    | some x => .ok (.float x)
    | none => .error invalid
  -- integer.py:46-53; for booleans the error carries no value (`valid=value`)
  | .integer .. =>
    match v with
    | .bool _ => .error (mkErr f .invalidType anc .none c!"invalid" [])
    | _ => match toInt env v with
      | some i => .ok (.int i)
      | none => .error invalid
  -- object.py:26-34
  | .object =>
    match v with
    | .str s => match env.importObj s with
      | some o => .ok o
      | none => .error (mkErr f .validation anc v c!"import" [(c!"value", env.repr v)])
    | _ => .ok v
  -- fields/surrogate.py:52-59; a surrogate is itself a dict (surrogate.py:14), so it takes the first branch
  | .surrogate _ =>
    match v with
    | .dict d => env.surrUnserialize d
    | .surr h => env.surrUnserialize (env.surrDict h)
    | _ => .error invalid
  -- field.py:589-596
  | _ => .ok v

/-- string.whitespace + ',;:' (email.py:21) -/
def emailSep (c : Char) : Bool :=
  c == ' ' || (9 ≤ c.toNat && c.toNat ≤ 13) || c == ',' || c == ';' || c == ':'

/-- `SEPARATOR_EXPR.sub(',', value)` with `[\s,;:]+` (email.py:20, 65); the flag says whether the
previous character belonged to a run already replaced. -/
def collapseSeps (u : Chars) : Bool → Str → Str
  | _, [] => []
  | inRun, c :: r =>
    if isSpace u c || c == ',' || c == ';' || c == ':' then
      if inRun then collapseSeps u true r else ',' :: collapseSeps u true r
    else c :: collapseSeps u false r

/-- The preprocessing step (field.py:455-460): an instance preprocessor, or Email's own
(email.py:59-67).  Any exception becomes an InvalidTypeError. -/
def preprocess (env : Env) (f : Field) (c : Common) (k : Leaf) (v : Val) (anc : List Str) :
    Except Exn Val :=
  match c.pre with
  | some h => match env.pre h v with
    | .ok v' => .ok v'
    | .error _ => .error (mkErr f .invalidType anc v c!"invalid" [])
  | none =>
    match k with
    | .email _ _ multiple extended =>
      if extended then .ok v
      else match v with
        | .str s =>
          let t := lower env.u (stripBy emailSep s)
          .ok (.str (if multiple then collapseSeps env.u false t else t))
        | _ => .error (mkErr f .invalidType anc v c!"invalid" [])
    | _ => .ok v

/-- `self.pattern.match(value)` of Email (email.py:33-43) -/
def emailMatches (multiple extended : Bool) (s : Str) : Bool :=
  if multiple then emailListRe.matchDollar s
  else if extended then extendedEmailRe.matchDollar s
  else emailAddressRe.matchDollar s

/-- 'character(s)' / 'byte(s)' (text.py:73-75, binary.py:59-61, 67-69) -/
def noun (singular plural : Str) (n : Nat) : Str := if n > 1 then plural else singular

/-- `not self.pattern or self.pattern.match(value)` (text.py:87-88) -/
def patOk (env : Env) (pattern : Option Nat) (s : Str) : Bool :=
  match pattern with
  | some p => env.pat p s
  | none => true

/-- Length and pattern checks of Text (text.py:71-90) on the already stripped text. -/
def validateText (f : Field) (min max : Option Nat) (pat : Str → Bool) (s : Str) (anc : List Str) :
    Except Exn Val :=
  let tooShort : Bool := violates (fun m => decide (s.length < m)) min
  let tooLong : Bool := violates (fun m => decide (s.length > m)) max
  if tooShort then
    let m := min.getD 0
    .error (mkErr f .validation anc (.str s) c!"min_length"
      [(c!"min_length", natStr m), (c!"noun", noun c!"character" c!"characters" m)])
  else if tooLong then
    let m := max.getD 0
    .error (mkErr f .validation anc (.str s) c!"max_length"
      [(c!"max_length", natStr m), (c!"noun", noun c!"character" c!"characters" m)])
  else if pat s then .ok (.str s)
  else .error (mkErr f .validation anc (.str s) c!"pattern" [])

/-- `_normalize_value` (datetime.py:71-79): a datetime without zone is taken to be in the field's
zone, any other is converted unless it already is in that very zone. -/
def normalizeDT (env : Env) (utc : Bool) (d : PDateTime) : Except PyErr PDateTime :=
  let tz : Tz := if utc then .utc else .localTz
  match d.tz with
  | some z => if z = tz then .ok d else env.astz d tz
  | none => .ok { d with tz := some tz }

/-- `_validate_value` of the leaf fields.  The value returned is `candidate if candidate is not None
else value` (field.py:465-467). -/
def validateLeaf (env : Env) (f : Field) (k : Leaf) (v : Val) (anc : List Str) : Except Exn Val :=
  let invalid : Exn := mkErr f .invalidType anc v c!"invalid" []
  let bound (tok text : Str) : Exn := mkErr f .validation anc v tok [(tok, text)]
  match k with
  -- field.py:598-610
  | .any => .ok v
  -- binary.py:53-71
  | .binary min max =>
    match v with
    | .bytes b =>
      let tooShort : Bool := violates (fun m => decide (b.length < m)) min
      let tooLong : Bool := violates (fun m => decide (b.length > m)) max
      if tooShort then
        .error (mkErr f .validation anc v c!"min_length"
          [(c!"min_length", natStr (min.getD 0)), (c!"noun", noun c!"byte" c!"bytes" (min.getD 0))])
      else if tooLong then
        .error (mkErr f .validation anc v c!"max_length"
          [(c!"max_length", natStr (max.getD 0)), (c!"noun", noun c!"byte" c!"bytes" (max.getD 0))])
      else .ok v
    | _ => .error invalid
  -- boolean.py:16-18
  | .boolean =>
    match v with
    | .bool _ => .ok v
    | _ => .error invalid
  -- date.py:77-89; comparing a datetime with a date bound raises TypeError
  | .date min max =>
    match v with
    | .date d =>
      if violates (fun m => lexLt d.key m.key) min then
        .error (bound c!"minimum" ((min.map (dateStr env.padYear)).getD []))
      else if violates (fun m => lexLt m.key d.key) max then
        .error (bound c!"maximum" ((max.map (dateStr env.padYear)).getD []))
      else .ok v
    | .datetime _ => if min.isSome || max.isSome then .error (.py .typeError) else .ok v
    | _ => .error invalid
  -- datetime.py:96-112
  | .datetime min max utc =>
    match v with
    | .datetime d =>
      match normalizeDT env utc d with
      | .error e => .error (.py e)
      | .ok d =>
        let bound (tok text : Str) : Exn := mkErr f .validation anc (.datetime d) tok [(tok, text)]
        if violates (fun m => lexLt d.key m.key) min then
          .error (bound c!"minimum" ((min.map (dateTimeStr env.padYear)).getD []))
        else if violates (fun m => lexLt m.key d.key) max then
          .error (bound c!"maximum" ((max.map (dateTimeStr env.padYear)).getD []))
        else .ok (.datetime d)
    | _ => .error invalid
  -- time.py:74-87
  | .time min max =>
    match v with
    | .time t =>
      if violates (fun m => lexLt t.key m.key) min then
        .error (bound c!"minimum" ((min.map timeStr).getD []))
      else if violates (fun m => lexLt m.key t.key) max then
        .error (bound c!"maximum" ((max.map timeStr).getD []))
      else .ok v
    | _ => .error invalid
  -- decimal.py:87-99; ordering a NaN raises InvalidOperation
  | .decimal min max =>
    match v with
    | .decimal d =>
      match violatesDec (fun m => decLt d m) min with
      | none => .error (.py .invalidOperation)
      | some true => .error (bound c!"minimum" ((min.map decStr).getD []))
      | some false =>
        match violatesDec (fun m => decLt m d) max with
        | none => .error (.py .invalidOperation)
        | some true => .error (bound c!"maximum" ((max.map decStr).getD []))
        | some false => .ok v
    | _ => .error invalid
  -- definition.py:51-59; `sorted` of the names is not represented (order of the message only)
  | .definition valid =>
    match v with
    | .field h =>
      if !valid.isEmpty && !valid.contains (env.fieldType h) then
        .error (mkErr f .validation anc v c!"invalidfield" [(c!"fields", joinStr c!", " valid)])
      else .ok v
    | _ => .error invalid
  -- email.py via text.py:65-90, strip is False (email.py:47)
  | .email min max multiple extended =>
    match v with
    | .str s => validateText f min max (emailMatches multiple extended) s anc
    | _ => .error invalid
  -- enumeration.py:76-79
  | .enumeration vals _ =>
    if pyIn v vals then .ok v
    else .error (mkErr f .invalidType anc v c!"invalid"
      [(c!"values", joinStr c!", " (vals.map env.repr))])
  -- error.py:27-30
  | .error =>
    match v with
    | .exc .. => .ok v
    | _ => .error invalid
  -- float.py:52-64
  | .float min max =>
    match v with
    | .float x =>
      if violates (fun m => floatLt x m) min then
        .error (bound c!"minimum" ((min.map env.fmtFloat).getD []))
      else if violates (fun m => floatLt m x) max then
        .error (bound c!"maximum" ((max.map env.fmtFloat).getD []))
      else .ok v
    | _ => .error invalid
  -- integer.py:55-67
  | .integer min max =>
    match v with
    | .int i =>
      if violates (fun m => decide (i < m)) min then
        .error (bound c!"minimum" ((min.map intStr).getD []))
      else if violates (fun m => decide (i > m)) max then
        .error (bound c!"maximum" ((max.map intStr).getD []))
      else .ok v
    | _ => .error invalid
  -- object.py has no validation
  | .object => .ok v
  -- fields/surrogate.py:61-67; surrogates have no `identity` attribute
  | .surrogate valid =>
    match v with
    | .surr _ => if valid.isEmpty then .ok v else .error (.py .attributeError)
    | _ => .error invalid
  -- text.py:65-90
  | .text pattern min max stripped =>
    match v with
    | .str s =>
      validateText f min max (patOk env pattern)
        (if stripped then strip env.u s else s) anc
    | _ => .error invalid
  -- token.py:36-43
  | .token segments =>
    match v with
    | .str s =>
      if (tokenRe env.u).matchDollar s then
        match segments with
        | some n => if ((s.count ':' : Nat) : Int) + 1 ≠ n then
            .error (mkErr f .validation anc v c!"invalid" []) else .ok v
        | none => .ok v
      else .error invalid
    | _ => .error invalid
  -- uuid.py:29-32
  | .uuid =>
    match v with
    | .str s => if uuidRe.matchDollar s then .ok v else .error invalid
    | _ => .error invalid

/-- `_serialize_value` of the leaf fields. -/
def serializeLeaf (env : Env) (f : Field) (k : Leaf) (v : Val) : Except Exn Val :=
  match k with
  -- binary.py:44-45
  | .binary .. =>
    match v with
    | .bytes b => .ok (.bytes (b64Encode b))
    | _ => .error (.py .typeError)
  -- date.py:65-66
  | .date .. =>
    match v with
    | .date d => .ok (.str (dateStr env.padYear d))
    | .datetime d => .ok (.str (dateStr env.padYear d.date))
    | _ => .error (.py .attributeError)
  -- datetime.py:81-84
  | .datetime .. =>
    match v with
    | .datetime d =>
      match (if d.tz = some .utc then .ok d else env.astz d .utc) with
      | .ok d' => .ok (.str (dateTimeStr env.padYear d'))
      | .error e => .error (.py e)
    | _ => .error (.py .attributeError)
  -- time.py:61-62
  | .time .. =>
    match v with
    | .time t => .ok (.str (timeStr t))
    | _ => .error (.py .attributeError)
  -- decimal.py:75-76
  | .decimal .. =>
    match v with
    | .decimal d => .ok (.str (decStr d))
    | _ => .ok (.str (env.str v))
  -- definition.py:41-42
  | .definition _ =>
    match v with
    | .field h => env.describe h
    | _ => .error (.py .attributeError)
  -- error.py:15-16
  | .error =>
    match v with
    | .exc _ _ errs st _ => .ok (serializeErr errs st)
    | _ => .error (.py .attributeError)
  -- object.py:17-24; this error carries no location
  | .object =>
    match v with
    | .str _ => .ok v
    | _ => match env.identify v with
      | some s => .ok (.str s)
      | none => .error (mkErr f .invalidType [c!"(unknown)"] v c!"invalid" [])
  -- fields/surrogate.py:49-50
  | .surrogate _ =>
    match v with
    | .surr h => env.surrSerialize h
    | _ => .error (.py .attributeError)
  -- field.py:581-587
  | _ => .ok v

/-- `Field.process` (field.py:418-475), shared by all non-structural fields. -/
def processLeaf (env : Env) (c : Common) (k : Leaf) (v : Val) (ph : Phase) (ser : Bool)
    (anc : List Str) : Except Exn Val := do
  let f : Field := .leaf c k
  let anc := ancOr f anc
  if ← isNull f v anc then
    return .none
  let v1 ← if ser = true ∧ ph = .inbound then unserializeLeaf env f k v anc else .ok v
  let v2 ← preprocess env f c k v1 anc
  if !c.constant.isNone && !pyEq v2 c.constant then
    throw (mkErr f .invalidType anc v2 c!"invalid" [])
  let v3 ← validateLeaf env f k v2 anc
  if ser = true ∧ ph = .outbound then
    match serializeLeaf env f k v3 with
    | .error (.py .overflowError) => throw (mkErr f .validation anc v3 c!"overflow" [])
    | r => r
  else
    return v3

/-- The processing function used for children. -/
abbrev Proc := Field → Val → Phase → Bool → List Str → Except Exn Val

/-- Current definition of a child: itself, or what its placeholder is defined as. -/
def resolve (env : Env) : Field → Option Field
  | .undef s => env.defs s
  | f => some f

/-- `child.process(...)` inside a structural field: a placeholder without definition raises
UndefinedFieldError (the `except AttributeError` clauses). -/
def callChild (env : Env) (rec : Proc) (f : Field) (v : Val) (ph : Phase) (ser : Bool)
    (anc : List Str) : Except Exn Val :=
  match resolve env f with
  | none => .error .undefinedField
  | some g => rec g v ph ser anc

/-- The outcome of a child call: its result, its structural error as a value, or an exception that
is not caught. -/
def collect (r : Except Exn Val) : Except Exn (Val × Bool) :=
  match r with
  | .ok v => .ok (v, true)
  | .error (.structural e) => .ok (e.toVal, false)
  | .error e => .error e

/-- The identity step `[i]`. -/
def idxStep (i : Nat) : Str := '[' :: natStr i ++ c!"]"

/-- The loop of Sequence.process (sequence.py:191-202). -/
def seqLoop (env : Env) (rec : Proc) (item : Field) (ph : Phase) (ser : Bool) (anc : List Str) :
    Nat → List Val → Except Exn (List Val × Bool)
  | _, [] => .ok ([], true)
  | i, v :: r => do
    let x ← collect (callChild env rec item v ph ser (anc ++ [idxStep i]))
    let y ← seqLoop env rec item ph ser anc (i + 1) r
    return (x.1 :: y.1, x.2 && y.2)

/-- pluralize('item', n) (util.py:132-140) -/
def itemNoun (n : Nat) : Str := if n = 1 then c!"item" else c!"items"

/-- A user preprocessor of Sequence, Map or Tuple: exceptions are not caught
(sequence.py:175-176, map.py:188-189, tuple.py:171-172). -/
def rawPre (env : Env) (c : Common) (v : Val) : Except Exn Val :=
  match c.pre with
  | some h => match env.pre h v with
    | .ok v' => .ok v'
    | .error e => .error (.py e)
  | none => .ok v

/-- Sequence.process (sequence.py:165-209).  Simplification: a preprocessor that returns something
other than a list raises TypeError. -/
def processSequence (env : Env) (rec : Proc) (c : Common) (item : Field) (min max : Option Nat)
    (unique : Bool) (v : Val) (ph : Phase) (ser : Bool) (anc : List Str) : Except Exn Val := do
  let f : Field := .sequence c item min max unique
  let anc := ancOr f anc
  if ← isNull f v anc then
    return .none
  match v with
  | .list _ =>
    match ← rawPre env c v with
    | .list l =>
      if violates (fun m => decide (l.length < m)) min then
        throw (mkErr f .validation anc (.list l) c!"min_length"
          [(c!"min_length", natStr (min.getD 0)), (c!"noun", itemNoun (min.getD 0))])
      if violates (fun m => decide (l.length > m)) max then
        throw (mkErr f .validation anc (.list l) c!"max_length"
          [(c!"max_length", natStr (max.getD 0)), (c!"noun", itemNoun (max.getD 0))])
      let r ← seqLoop env rec item ph ser anc 0 l
      if !r.2 then
        throw (.structural ⟨.validation, anc, [], .list r.1, .list l⟩)
      else if unique then
        if r.1.all hashable then
          if allDistinct r.1 then return .list r.1
          else throw (mkErr f .validation anc (.list l) c!"duplicate" [])
        else throw (.py .typeError)
      else
        return .list r.1
    | _ => throw (.py .typeError)
  | _ => throw (mkErr f .invalidType anc v c!"invalid" [])

/-- The loop of Tuple.process (tuple.py:182-193), for equally long lists. -/
def tupLoop (env : Env) (rec : Proc) (ph : Phase) (ser : Bool) (anc : List Str) :
    Nat → List Field → List Val → Except Exn (List Val × Bool)
  | i, f :: fs, v :: vs => do
    let x ← collect (callChild env rec f v ph ser (anc ++ [idxStep i]))
    let y ← tupLoop env rec ph ser anc (i + 1) fs vs
    return (x.1 :: y.1, x.2 && y.2)
  | _, _, _ => .ok ([], true)

/-- Tuple.process (tuple.py:163-198).  Same simplification for preprocessors. -/
def processTuple (env : Env) (rec : Proc) (c : Common) (values : List Field) (v : Val) (ph : Phase)
    (ser : Bool) (anc : List Str) : Except Exn Val := do
  let f : Field := .tuple c values
  let anc := ancOr f anc
  if ← isNull f v anc then
    return .none
  let body (w : Val) (l : List Val) : Except Exn Val := do
    if l.length ≠ values.length then
      throw (mkErr f .validation anc w c!"length" [(c!"length", natStr values.length)])
    let r ← tupLoop env rec ph ser anc 0 values l
    if r.2 then return .tuple r.1
    else throw (.structural ⟨.validation, anc, [], .list r.1, w⟩)
  let go : Except Exn Val := do
    match ← rawPre env c v with
    | .list l => body (.list l) l
    | .tuple l => body (.tuple l) l
    | _ => throw (.py .typeError)
  match v with
  | .list _ => go
  | .tuple _ => go
  | _ => throw (mkErr f .invalidType anc v c!"invalid" [])

/-- `'[%s]' % key` (map.py:199, 206): a tuple operand is taken as the argument list. -/
def keyStep (env : Env) : Val → Except Exn Str
  | .str s => .ok ('[' :: s ++ c!"]")
  | .int i => .ok ('[' :: intStr i ++ c!"]")
  | .tuple [.str s] => .ok ('[' :: s ++ c!"]")
  | .tuple [v] => .ok ('[' :: env.str v ++ c!"]")
  | .tuple _ => .error (.py .typeError)
  | v => .ok ('[' :: env.str v ++ c!"]")

/-- `'%s' % key` in the 'required' and 'unknown' messages. -/
def keyText (env : Env) : Val → Str
  | .str s => s
  | v => env.str v

/-- The key part of one iteration of the Map loop (map.py:196-204). -/
def mapKey (env : Env) (rec : Proc) (f : Field) (whole : Val) (key : Option Field) (ph : Phase)
    (ser : Bool) (anc : List Str) (k : Val) : Except Exn Val :=
  match key with
  | some kf => do
    let step ← keyStep env k
    match rec kf k ph ser (anc ++ [step]) with
    | .ok k' => .ok k'
    | .error (.structural _) => .error (mkErr f .validation anc whole c!"invalidkeys" [])
    | .error e => .error e
  | none => if k.isStr then .ok k else .error (mkErr f .validation anc whole c!"invalidkeys" [])

/-- The loop of Map.process (map.py:195-214). -/
def mapLoop (env : Env) (rec : Proc) (f : Field) (whole : Val) (key : Option Field) (value : Field)
    (ph : Phase) (ser : Bool) (anc : List Str) :
    List (Val × Val) → List (Val × Val) → Bool → Except Exn (List (Val × Val) × Bool)
  | [], acc, valid => .ok (acc, valid)
  | (k, v) :: r, acc, valid => do
    let k' ← mapKey env rec f whole key ph ser anc k
    let step ← keyStep env k'
    let x ← collect (callChild env rec value v ph ser (anc ++ [step]))
    if hashable k' then
      mapLoop env rec f whole key value ph ser anc r (dictSet acc k' x.1) (valid && x.2)
    else .error (.py .typeError)

/-- The required keys check of Map.process (map.py:216-221). -/
def mapRequired (env : Env) (f : Field) (anc : List Str) :
    List Val → List (Val × Val) → Bool → Except Exn (List (Val × Val) × Bool)
  | [], acc, valid => .ok (acc, valid)
  | k :: r, acc, valid =>
    if hashable k then
      match dictGet acc k with
      | some _ => mapRequired env f anc r acc valid
      | none =>
        match mkErr f .validation anc .none c!"required"
            [(c!"name", keyText env k)] with
        | .structural e => mapRequired env f anc r (dictSet acc k e.toVal) false
        | e => .error e
    else .error (.py .typeError)

/-- Map.process (map.py:178-226).  Same simplification for preprocessors. -/
def processMap (env : Env) (rec : Proc) (c : Common) (key : Option Field) (value : Field)
    (required : List Val) (v : Val) (ph : Phase) (ser : Bool) (anc : List Str) : Except Exn Val := do
  let f : Field := .map c key value required
  let anc := ancOr f anc
  if ← isNull f v anc then
    return .none
  match v with
  | .dict _ =>
    match ← rawPre env c v with
    | .dict d =>
      let r ← mapLoop env rec f (.dict d) key value ph ser anc d [] true
      let r ← mapRequired env f anc required r.1 r.2
      if r.2 then return .dict r.1
      else throw (.structural ⟨.validation, anc, [], .dict r.1, .dict d⟩)
    | _ => throw (.py .attributeError)
  | _ => throw (mkErr f .invalidType anc v c!"invalid" [])

/-- The loop of Union.process (union.py:104-115): `none` when every member raised
InvalidTypeError. -/
def unionLoop (env : Env) (rec : Proc) (v : Val) (ph : Phase) (ser : Bool) (anc : List Str) :
    List Field → Option (Except Exn Val)
  | [] => none
  | f :: fs =>
    match callChild env rec f v ph ser anc with
    | .error (.structural e) =>
      if e.cls = .invalidType then unionLoop env rec v ph ser anc fs
      else some (.error (.structural e))
    | r => some r

/-- Union.process (union.py:98-115). -/
def processUnion (env : Env) (rec : Proc) (c : Common) (fields : List Field) (v : Val) (ph : Phase)
    (ser : Bool) (anc : List Str) : Except Exn Val := do
  let f : Field := .union c fields
  let anc := ancOr f anc
  if ← isNull f v anc then
    return .none
  match unionLoop env rec v ph ser anc fields with
  | some r => r
  | none => throw (mkErr f .invalidType anc v c!"invalid" [])

/-- State of the key loop of Structure.process: input keys not yet visited, the output dict, and
whether everything was valid so far. -/
structure SState where
  names : List Val
  out : List (Val × Val)
  valid : Bool

/-- `structure[name] = field.process(...)` with its exception handling (structure.py:424-437), for a
member whose value is at hand. -/
def structField (env : Env) (rec : Proc) (ph : Phase) (ser : Bool) (anc : List Str) (name : Str)
    (field : Field) (fv : Val) (st : SState) : Except Exn SState :=
  match resolve env field with
  | none => .error .undefinedField
  | some g =>
    match g.common? with
    | none => .error .undefinedField
    | some c =>
      if c.ignoreNull && fv.isNone then .ok st
      else do
        let x ← collect (rec g fv ph ser (anc ++ ['.' :: name]))
        return { st with out := dictSet st.out (.str name) x.1, valid := st.valid && x.2 }

/-- One iteration of the key loop (structure.py:407-437).  `field.default` and `field.required`
are read outside the `try`, so an undefined placeholder whose key is absent raises AttributeError. -/
def structStep (env : Env) (rec : Proc) (f : Field) (value : List (Val × Val))
    (defn : List (Str × Field)) (ph : Phase) (ser part : Bool) (anc : List Str) (name : Str)
    (st : SState) : Except Exn SState :=
  match defn.lookup name with
  | none => .error (.py .keyError)
  | some field =>
    if pyIn (.str name) st.names then
      structField env rec ph ser anc name field ((dictGet value (.str name)).getD .none)
        { st with names := st.names.filter fun k => !pyEq (.str name) k }
    else if part then .ok st
    else
      match (resolve env field).bind Field.common? with
      | none => .error (.py .attributeError)
      | some c =>
        if ph = .inbound ∧ !c.default.isNone then
          structField env rec ph ser anc name field c.default st
        else if c.required then
          match mkErr f .validation anc .none c!"required" [(c!"name", name)] with
          | .structural e =>
            .ok { st with out := dictSet st.out (.str name) e.toVal, valid := false }
          | e => .error e
        else .ok st

/-- The key loop. -/
def structLoop (env : Env) (rec : Proc) (f : Field) (value : List (Val × Val))
    (defn : List (Str × Field)) (ph : Phase) (ser part : Bool) (anc : List Str) :
    List Str → SState → Except Exn SState
  | [], st => .ok st
  | n :: r, st => do
    let st ← structStep env rec f value defn ph ser part anc n st
    structLoop env rec f value defn ph ser part anc r st

/-- Unknown keys (structure.py:439-443).  Simplification: Python iterates a set here, so the order of
these entries in the error's dict is unspecified; the model uses input order. -/
def structUnknown (env : Env) (f : Field) (anc : List Str) :
    List Val → SState → Except Exn SState
  | [], st => .ok st
  | k :: r, st =>
    match mkErr f .validation anc .none c!"unknown"
        [(c!"name", keyText env k)] with
    | .structural e =>
      structUnknown env f anc r { st with out := dictSet st.out k e.toVal, valid := false }
    | e => .error e

/-- Structure.process after the definition has been chosen (structure.py:397-448). -/
def structBody (env : Env) (rec : Proc) (f : Field) (strict : Bool) (order : List Str)
    (defn : List (Str × Field)) (value : List (Val × Val)) (ph : Phase) (ser part : Bool)
    (anc : List Str) : Except Exn Val := do
  let st ← structLoop env rec f value defn ph ser part anc order
    { names := value.map (·.1), out := [], valid := true }
  let st ← if strict then structUnknown env f anc st.names st else .ok st
  if st.valid then return .dict st.out
  else throw (.structural ⟨.validation, anc, [], .dict st.out, .dict value⟩)

/-- The preprocessing step of Structure (structure.py:369-374). -/
def structPre (env : Env) (f : Field) (c : Common) (v : Val) (anc : List Str) : Except Exn Val :=
  match c.pre with
  | some h => match env.pre h v with
    | .ok v' => .ok v'
    | .error _ => .error (mkErr f .invalidType anc v c!"invalid" [])
  | none => .ok v

/-- Structure.process for a plain structure (structure.py:359-448). -/
def processStructure (env : Env) (rec : Proc) (c : Common) (defn : List (Str × Field)) (strict : Bool)
    (keyOrder : List Str) (part : Bool) (v : Val) (ph : Phase) (ser : Bool) (anc : List Str) :
    Except Exn Val := do
  let f : Field := .structure c defn strict keyOrder
  let anc := ancOr f anc
  if ← isNull f v anc then
    return .none
  match v with
  | .dict _ =>
    match ← structPre env f c v anc with
    | .dict d =>
      structBody env rec f strict (if keyOrder.isEmpty then defn.map (·.1) else keyOrder) defn d
        ph ser part anc
    | _ => throw (.py .attributeError)
  | _ => throw (mkErr f .invalidType anc v c!"invalid" [])

/-- `self.structure.get(identity)` for a polymorphic structure; `none` for TypeError. -/
def variantGet (variants : List (Val × List (Str × Field))) (id : Val) : Option (List (Str × Field)) :=
  match variants with
  | [] => none
  | (k, d) :: r => if pyEq id k then some d else variantGet r id

/-- Structure.process for a polymorphic structure (structure.py:359-448).  With `key_order` set, the
code indexes the list by the identity (structure.py:399-400), which raises TypeError unless the
identity is falsy or an integer; integer identities are not represented there. -/
def processPoly (env : Env) (rec : Proc) (c : Common) (disc : Field)
    (variants : List (Val × List (Str × Field))) (strict : Bool) (keyOrder : List Str) (part : Bool)
    (v : Val) (ph : Phase) (ser : Bool) (anc : List Str) : Except Exn Val := do
  let f : Field := .poly c disc variants strict keyOrder
  let anc := ancOr f anc
  if ← isNull f v anc then
    return .none
  match v with
  | .dict _ =>
    match ← structPre env f c v anc with
    | .dict d =>
      let dname : Str := disc.name.getD []
      let raw : Val := (dictGet d (.str dname)).getD .none
      if raw.isNone then
        throw (mkErr f .validation anc .none c!"required" [(c!"name", dname)])
      let id ← rec disc raw ph ser (anc ++ ['.' :: dname])
      if !hashable id then throw (.py .typeError)
      match variantGet variants id with
      | none => throw (mkErr f .validation anc id c!"unrecognized" [])
      | some defn =>
        if defn.isEmpty then throw (mkErr f .validation anc id c!"unrecognized" [])
        if !keyOrder.isEmpty && id.truthy then throw (.py .typeError)
        structBody env rec f strict (if keyOrder.isEmpty then defn.map (·.1) else keyOrder) defn d
          ph ser part anc
    | _ => throw (.py .attributeError)
  | _ => throw (mkErr f .invalidType anc v c!"invalid" [])

/-- One call of `field.process(value, phase, serialized, ancestry)`, children processed by `rec`. -/
def processStep (env : Env) (rec : Proc) : Proc := fun f v ph ser anc =>
  match f with
  | .leaf c k => processLeaf env c k v ph ser anc
  | .sequence c item min max unique => processSequence env rec c item min max unique v ph ser anc
  | .map c key value required => processMap env rec c key value required v ph ser anc
  | .tuple c values => processTuple env rec c values v ph ser anc
  | .union c fields => processUnion env rec c fields v ph ser anc
  | .structure c defn strict ko => processStructure env rec c defn strict ko false v ph ser anc
  | .poly c disc variants strict ko => processPoly env rec c disc variants strict ko false v ph ser anc
  | .undef _ => .error (.py .attributeError)

/-- `field.process(...)` with `n` levels of call depth available; running out of depth is Python's
RecursionError. -/
def process (env : Env) : Nat → Proc
  | 0 => fun _ _ _ _ _ => .error (.py .recursionError)
  | n + 1 => processStep env (process env n)

/-- `structure.process(value, ..., partial=True)` -/
def processPartial (env : Env) (n : Nat) (f : Field) (v : Val) (ph : Phase) (ser : Bool)
    (anc : List Str) : Except Exn Val :=
  match f with
  | .structure c defn strict ko => processStructure env (process env n) c defn strict ko true v ph ser anc
  | .poly c disc variants strict ko =>
    processPoly env (process env n) c disc variants strict ko true v ph ser anc
  | _ => .error (.py .typeError)

end Scheme
