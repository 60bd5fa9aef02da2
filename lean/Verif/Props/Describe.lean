import Verif.Lemmas.Describe
import Verif.Lemmas.DateTime
import Verif.Lemmas.Decimal
import Verif.Props.Clone
import Verif.Props.DateTime
import Verif.Spec.Examples

/-! C29: descriptions. -/

namespace Scheme

/-! ### the constructors one by one -/

theorem initField_binary (env : Env) (args : Args) : initField env c!"binary" args = (do
    let c ← initCommon [c!"min_length", c!"max_length"] args
    let mn ← args.get c!"min_length"
    let mx ← args.get c!"max_length"
    let mn ← lenArg (minArg (args.flag c!"nonempty" false) mn)
    let mx ← lenArg mx
    return .leaf c (.binary mn mx)) := rfl

theorem initField_boolean (env : Env) (args : Args) : initField env c!"boolean" args = (do
    let c ← initCommon [] args
    return .leaf c .boolean) := rfl

theorem initField_date (env : Env) (args : Args) : initField env c!"date" args = (do
    let c ← initCommon [c!"minimum", c!"maximum"] args
    let mn ← args.get c!"minimum"
    let mx ← args.get c!"maximum"
    let mx ← dateArg env mx
    let mn ← dateArg env mn
    return .leaf c (.date mn mx)) := rfl

theorem initField_datetime (env : Env) (args : Args) : initField env c!"datetime" args = (do
    let c ← initCommon [c!"minimum", c!"maximum", c!"utc"] args
    let mn ← args.get c!"minimum"
    let mx ← args.get c!"maximum"
    let utc := args.flag c!"utc" false
    let mx ← dateTimeArg env utc mx
    let mn ← dateTimeArg env utc mn
    return .leaf c (.datetime mn mx utc)) := rfl

theorem initField_decimal (env : Env) (args : Args) : initField env c!"decimal" args = (do
    let c ← initCommon [c!"minimum", c!"maximum"] args
    let mn ← args.get c!"minimum"
    let mx ← args.get c!"maximum"
    let mn ← decArg env mn
    let mx ← decArg env mx
    return .leaf c (.decimal mn mx)) := rfl

theorem initField_definition (env : Env) (args : Args) : initField env c!"definition" args = (do
    let c ← initCommon [c!"valid_fields"] args
    let v ← args.get c!"valid_fields"
    let v ← typesArg v
    return .leaf c (.definition v)) := rfl

theorem initField_email (env : Env) (args : Args) : initField env c!"email" args = (do
    let multiple := args.flag c!"multiple" false
    let extended := args.flag c!"extended" false
    if multiple && extended then .error (.py .valueError)
    else do
      let c ← initCommon [c!"multiple", c!"extended", c!"pattern", c!"strip", c!"errors", c!"min_length", c!"max_length"]
        (args.filter fun e => e.1 != c!"errors")
      let mn ← args.get c!"min_length"
      let mx ← args.get c!"max_length"
      let mn ← lenArg (minArg (args.flag c!"nonempty" false) mn)
      let mx ← lenArg mx
      return .leaf c (.email mn mx multiple extended)) := rfl

theorem initField_enumeration (env : Env) (args : Args) : initField env c!"enumeration" args = (do
    let c ← initCommon [c!"enumeration", c!"ignored_values"] args
    let vals ← args.get c!"enumeration"
    let ign ← args.get c!"ignored_values"
    let vals ← enumArg vals
    let ign ← ignoredArg ign
    return .leaf c (.enumeration vals ign)) := rfl

theorem initField_error (env : Env) (args : Args) : initField env c!"error" args = (do
    let c ← initCommon [] args
    return .leaf c .error) := rfl

theorem initField_field (env : Env) (args : Args) : initField env c!"field" args = (do
    let c ← initCommon [] args
    return .leaf c .any) := rfl

theorem initField_float (env : Env) (args : Args) : initField env c!"float" args = (do
    let c ← initCommon [c!"minimum", c!"maximum"] args
    let mn ← args.get c!"minimum"
    let mx ← args.get c!"maximum"
    let mn ← floatArg mn
    let mx ← floatArg mx
    return .leaf c (.float mn mx)) := rfl

theorem initField_integer (env : Env) (args : Args) : initField env c!"integer" args = (do
    let c ← initCommon [c!"minimum", c!"maximum"] args
    let mn ← args.get c!"minimum"
    let mx ← args.get c!"maximum"
    let mn ← intArg mn
    let mx ← intArg mx
    return .leaf c (.integer mn mx)) := rfl

theorem initField_object (env : Env) (args : Args) : initField env c!"object" args = (do
    let c ← initCommon [] args
    return .leaf c .object) := rfl

theorem initField_surrogate (env : Env) (args : Args) : initField env c!"surrogate" args = (do
    let c ← initCommon [c!"valid_surrogates"] args
    let v ← args.get c!"valid_surrogates"
    let v ← surrogatesArg v
    return .leaf c (.surrogate v)) := rfl

theorem initField_text (env : Env) (args : Args) : initField env c!"text" args = (do
    let c ← initCommon [c!"pattern", c!"min_length", c!"max_length", c!"strip"] args
    let pat ← args.get c!"pattern"
    let mn ← args.get c!"min_length"
    let mx ← args.get c!"max_length"
    if !pat.isNone then unrepresented
    else do
      let mn ← lenArg (minArg (args.flag c!"nonempty" false) mn)
      let mx ← lenArg mx
      return .leaf c (.text none mn mx (args.flag c!"strip" true))) := rfl

theorem initField_time (env : Env) (args : Args) : initField env c!"time" args = (do
    let c ← initCommon [c!"minimum", c!"maximum"] args
    let mn ← args.get c!"minimum"
    let mx ← args.get c!"maximum"
    let mx ← timeArg env mx
    let mn ← timeArg env mn
    return .leaf c (.time mn mx)) := rfl

theorem initField_token (env : Env) (args : Args) : initField env c!"token" args = (do
    let c ← initCommon [c!"segments"] args
    let seg ← args.get c!"segments"
    match seg with
    | .none => return .leaf c (.token none)
    | .int i => return .leaf c (.token (some i))
    | _ => unrepresented) := rfl

theorem initField_uuid (env : Env) (args : Args) : initField env c!"uuid" args = (do
    let c ← initCommon [] args
    return .leaf c .uuid) := rfl

theorem initField_sequence (env : Env) (args : Args) : initField env c!"sequence" args = (do
    let c ← initCommon [c!"item", c!"min_length", c!"max_length", c!"unique"] args
    let item ← fieldArg (args.lookup c!"item")
    let mn ← args.get c!"min_length"
    let mx ← args.get c!"max_length"
    let mn ← lenArg mn
    let mx ← lenArg mx
    return .sequence c item mn mx (args.flag c!"unique" false)) := rfl

theorem initField_map (env : Env) (args : Args) : initField env c!"map" args = (do
    let c ← initCommon [c!"value", c!"key", c!"required_keys"] args
    let value ← fieldArg (args.lookup c!"value")
    let key ← keyArg (args.lookup c!"key")
    let req ← args.get c!"required_keys"
    let req ← keysArg req
    return .map c key value req) := rfl

theorem initField_tuple (env : Env) (args : Args) : initField env c!"tuple" args = (do
    let c ← initCommon [c!"values"] args
    let values ← fieldsArg (args.lookup c!"values")
    return .tuple c values) := rfl

theorem initField_union (env : Env) (args : Args) : initField env c!"union" args = (do
    let c ← initCommon [c!"fields"] args
    let fields ← fieldsArg (args.lookup c!"fields")
    return .union c fields) := rfl

theorem initField_structure (env : Env) (args : Args) : initField env c!"structure" args = (initStructure env args) := rfl

section
variable {env : Env}

/-- An optional value as text. -/
def textV {α : Type} (text : α → Str) : Option α → Val
  | some x => .str (text x)
  | none => .none

theorem plain_natV (n : Option Nat) : PlainVal (natV n) := by cases n <;> constructor
theorem plain_intV (n : Option Int) : PlainVal (intV n) := by cases n <;> constructor
theorem plain_floatV (n : Option PyFloat) : PlainVal (floatV n) := by cases n <;> constructor
theorem plain_typesV (l : List Str) : PlainVal (typesV l) := by
  cases l with
  | nil => constructor
  | cons a r =>
    refine .tuple fun v hv => ?_
    obtain ⟨s, _, rfl⟩ := List.mem_map.1 hv
    constructor
theorem plain_listV {l : List Val} (h : ∀ v ∈ l, PlainVal v) : PlainVal (listV l) := by
  cases l with
  | nil => constructor
  | cons a r => exact .list h

theorem lenArg_natV (n : Option Nat) : lenArg (natV n) = .ok n := by
  cases n with
  | none => rfl
  | some n => simp [natV, lenArg]

theorem strArgs_strs (l : List Str) : strArgs (l.map .str) = .ok l := by
  induction l with
  | nil => rfl
  | cons s r ih => simp only [List.map_cons, strArgs, ih]; rfl

theorem typesArg_typesV {l : List Str} (h : ∀ t ∈ l, t ∈ fieldTypes) : typesArg (typesV l) = .ok l := by
  cases l with
  | nil => rfl
  | cons a r =>
    have : (a :: r).all fieldTypes.contains = true := by
      rw [List.all_eq_true]; intro t ht; exact List.contains_iff_mem.2 (h t ht)
    have e : strArgs (List.map Val.str (a :: r)) = .ok (a :: r) := strArgs_strs _
    simp only [typesV, typesArg, e, except_bind_ok]
    rw [if_pos this]; rfl

theorem surrogatesArg_typesV (l : List Str) : surrogatesArg (typesV l) = .ok l := by
  cases l with
  | nil => rfl
  | cons a r => exact strArgs_strs (a :: r)

theorem nativeType_plain {v : Val} (h : PlainVal v) : nativeType v = true := by cases h <;> rfl

theorem minArg_false (v : Val) : minArg false v = v := rfl

theorem parse_carriedDate {d : PDate} (h : CarriedDate env d) : parseDate env.u (dateStr env.padYear d) = some d := by
  rw [dateStr_iso h.1 h.2, parseDate_iff]
  exact ⟨dateText_iso env.u h.1, h.1⟩

theorem parse_carriedTime {d : PTime} (h : CarriedTime d) : parseTime env.u (timeStr d) = some d := by
  rw [timeStr_iso h.1, parseTime_iff]
  have := timeText_iso env.u h.1
  rw [show ({ d with micro := 0 } : PTime) = d by rw [← h.2]] at this
  exact ⟨this, h.1⟩

theorem parse_carriedDateTime {d : PDateTime} (h : CarriedDate env d.date) (ht : CarriedTime d.time) (hz : d.tz = some .utc) :
    parseDateTime env.u (dateTimeStr env.padYear d) = some d := by
  have e : dateTimeStr env.padYear d = isoDateTime d := by
    simp only [dateTimeStr, dateStr_iso h.1 h.2, timeStr_iso ht.1, isoDateTime]
  rw [e, parseDateTime_iff]
  exact ⟨dateTimeText_iso env.u h.1 ht.1 hz ht.2, h.1, ht.1⟩

theorem ownKeys_ok (f : Field) : ∀ k ∈ ownKeys f, k ∉ commonKeys ∧ k ≠ c!"structural" := by
  cases f with
  | leaf c k => cases k <;> simp only [ownKeys] <;> decide
  | _ => simp only [ownKeys] <;> decide

theorem leafType_known (k : Leaf) : leafType k ∈ fieldTypes := by cases k <;> simp only [leafType] <;> decide

theorem leaf_shell (verbose : Bool) {c : Common} {k : Leaf} (h : Describable env (.leaf c k)) (known : List Str)
    (htn : ((leafTable k).map (·.1)).Nodup)
    (hts : ∀ e ∈ leafTable k, e.1 ∈ ownKeys (.leaf c k) ∧ (e.1 ∈ (leafOver env k).map (·.1) ∨ PlainVal e.2.1))
    (hon : ((leafOver env k).map (·.1)).Nodup)
    (hos : ∀ e ∈ leafOver env k, e.1 ∈ ownKeys (.leaf c k) ∧ ∃ s, e.2 = .str s)
    (hcont : ∀ d args c', NodeArgs env (ownKeys (.leaf c k)) (leafType k) c (leafTable k) (leafOver env k) d args →
      initCommon known (if k.isEmail then args.filter fun e => e.1 != c!"errors" else args) = .ok c' →
      initField env (leafType k) args = .ok (.leaf c' k)) :
    ∃ d args c', descBase env verbose (leafType k) c false (leafTable k) (leafOver env k) = .ok (Desc.val d) ∧
      NodeArgs env (ownKeys (.leaf c k)) (leafType k) c (leafTable k) (leafOver env k) d args ∧
      initField env (leafType k) args = .ok (.leaf c' k) ∧ SameUse c c' := by
  have hc := h.common c rfl
  have hd : PlainVal c.default := h.default
  obtain ⟨d, args, h1, h2⟩ := descNode (env := env) verbose (leafType_known k) false hc (ownKeys_ok _) htn hts hon
    (fun e he => by
      obtain ⟨h1, s, h2⟩ := hos e he
      exact ⟨.inl h1, _, h2 ▸ (PlainVal.str s).reads⟩) hd (.inl (fun hm => by
      obtain ⟨e, he, hk⟩ := List.mem_map.1 hm
      have := (ownKeys_ok _ _ (hos e he).1).1
      rw [hk] at this
      exact this (by decide)))
  cases he : k.isEmail with
  | false =>
    obtain ⟨c', h3, h4⟩ := initCommon_ok (known := known) h2.common hc.pre hc.errors
    exact ⟨d, args, c', h1, h2, hcont d args c' h2 (by rw [he]; exact h3), h4⟩
  | true =>
    obtain ⟨c', h3, h4⟩ := initCommon_ok (known := known) (commonArgs_filter h2.common) hc.pre hc.errors
    exact ⟨d, args, c', h1, h2, hcont d args c' h2 (by rw [he]; exact h3), h4⟩

theorem describe_leaf_simple (verbose : Bool) {c : Common} {k : Leaf} (h : Describable env (.leaf c k))
    (hk : leafTable k = [] ∧ leafOver env k = [] ∧ k.isEmail = false)
    (hi : ∀ args, initField env (leafType k) args = (initCommon [] args >>= fun c => pure (Field.leaf c k))) :
    ∃ d args c', descBase env verbose (leafType k) c false (leafTable k) (leafOver env k) = .ok (Desc.val d) ∧
      NodeArgs env (ownKeys (.leaf c k)) (leafType k) c (leafTable k) (leafOver env k) d args ∧
      initField env (leafType k) args = .ok (.leaf c' k) ∧ SameUse c c' := by
  obtain ⟨h1, h2, h3⟩ := hk
  refine leaf_shell verbose h [] (by rw [h1]; simp) (by rw [h1]; simp) (by rw [h2]; simp) (by rw [h2]; simp) ?_
  intro d args c' hn hc
  rw [h3] at hc
  simp only [Bool.false_eq_true, if_false] at hc
  rw [hi, hc]; rfl

/-- A simple field comes back, with the same parameters. -/
theorem describe_leaf (verbose : Bool) {c : Common} {k : Leaf} (h : Describable env (.leaf c k)) :
    ∃ d args c', descBase env verbose (leafType k) c false (leafTable k) (leafOver env k) = .ok (Desc.val d) ∧
      NodeArgs env (ownKeys (.leaf c k)) (leafType k) c (leafTable k) (leafOver env k) d args ∧
      initField env (leafType k) args = .ok (.leaf c' k) ∧ SameUse c c' := by
  have hl := h.leaf c k rfl
  cases k with
  | boolean => exact describe_leaf_simple verbose h ⟨rfl, rfl, rfl⟩ fun _ => rfl
  | any => exact describe_leaf_simple verbose h ⟨rfl, rfl, rfl⟩ fun _ => rfl
  | object => exact describe_leaf_simple verbose h ⟨rfl, rfl, rfl⟩ fun _ => rfl
  | error => exact describe_leaf_simple verbose h ⟨rfl, rfl, rfl⟩ fun _ => rfl
  | uuid => exact describe_leaf_simple verbose h ⟨rfl, rfl, rfl⟩ fun _ => rfl
  | binary mn mx =>
    refine leaf_shell verbose h [c!"min_length", c!"max_length"] (by simp only [leafTable, List.map_cons, List.map_nil]; decide)
      ?_ (by simp [leafOver]) (by simp [leafOver]) ?_
    · intro e he
      simp only [leafTable, List.mem_cons, List.not_mem_nil, or_false] at he
      rcases he with rfl | rfl <;> exact ⟨by simp [ownKeys], .inr (plain_natV _)⟩
    · intro d args c' hn hc
      have h1 := hn.plain c!"min_length" (natV mn) (by simp [leafTable]) (by simp [leafOver]) (plain_natV _)
      have h2 := hn.plain c!"max_length" (natV mx) (by simp [leafTable]) (by simp [leafOver]) (plain_natV _)
      simp only [Leaf.isEmail, Bool.false_eq_true, if_false] at hc
      simp only [leafType, initField_binary, hc, except_bind_ok, h1, h2, hn.common.nonempty, minArg_false, lenArg_natV]
      rfl
  | date mn mx =>
    refine leaf_shell verbose h [c!"minimum", c!"maximum"] (by simp only [leafTable, List.map_cons, List.map_nil]; decide)
      ?_ ?_ ?_ ?_
    · intro e he
      simp only [leafTable, List.mem_cons, List.not_mem_nil, or_false] at he
      rcases he with rfl | rfl
      · refine ⟨by simp [ownKeys], ?_⟩
        cases mx with
        | none => exact .inr .none
        | some d => simp [leafOver, overOf]
      · refine ⟨by simp [ownKeys], ?_⟩
        cases mn with
        | none => exact .inr .none
        | some d => simp [leafOver, overOf]
    · cases mn <;> cases mx <;> simp [leafOver, overOf]
    · cases mn <;> cases mx <;> simp [leafOver, overOf, ownKeys]
    · intro d args c' hn hc
      have h1 : args.get c!"maximum" = .ok (textV (dateStr env.padYear) mx) := by
        cases mx with
        | none => exact hn.plain _ .none (by simp [leafTable]) (by cases mn <;> simp [leafOver, overOf]) .none
        | some d => exact hn.givenVal (by cases mn <;> simp [leafOver, overOf, textV]) (.str _)
      have h2 : args.get c!"minimum" = .ok (textV (dateStr env.padYear) mn) := by
        cases mn with
        | none => exact hn.plain _ .none (by simp [leafTable]) (by cases mx <;> simp [leafOver, overOf]) .none
        | some d => exact hn.givenVal (by cases mx <;> simp [leafOver, overOf, textV]) (.str _)
      have k1 : dateArg env (textV (dateStr env.padYear) mx) = .ok mx := by
        cases mx with
        | none => rfl
        | some d => simp only [textV, dateArg, parse_carriedDate (hl.2 d rfl)]
      have k2 : dateArg env (textV (dateStr env.padYear) mn) = .ok mn := by
        cases mn with
        | none => rfl
        | some d => simp only [textV, dateArg, parse_carriedDate (hl.1 d rfl)]
      simp only [Leaf.isEmail, Bool.false_eq_true, if_false] at hc
      simp only [leafType, initField_date, hc, except_bind_ok, h1, h2, k1, k2]
      rfl
  | time mn mx =>
    refine leaf_shell verbose h [c!"minimum", c!"maximum"] (by simp only [leafTable, List.map_cons, List.map_nil]; decide)
      ?_ ?_ ?_ ?_
    · intro e he
      simp only [leafTable, List.mem_cons, List.not_mem_nil, or_false] at he
      rcases he with rfl | rfl
      · refine ⟨by simp [ownKeys], ?_⟩
        cases mx with
        | none => exact .inr .none
        | some d => simp [leafOver, overOf]
      · refine ⟨by simp [ownKeys], ?_⟩
        cases mn with
        | none => exact .inr .none
        | some d => simp [leafOver, overOf]
    · cases mn <;> cases mx <;> simp [leafOver, overOf]
    · cases mn <;> cases mx <;> simp [leafOver, overOf, ownKeys]
    · intro d args c' hn hc
      have h1 : args.get c!"maximum" = .ok (textV (timeStr) mx) := by
        cases mx with
        | none => exact hn.plain _ .none (by simp [leafTable]) (by cases mn <;> simp [leafOver, overOf]) .none
        | some d => exact hn.givenVal (by cases mn <;> simp [leafOver, overOf, textV]) (.str _)
      have h2 : args.get c!"minimum" = .ok (textV (timeStr) mn) := by
        cases mn with
        | none => exact hn.plain _ .none (by simp [leafTable]) (by cases mx <;> simp [leafOver, overOf]) .none
        | some d => exact hn.givenVal (by cases mx <;> simp [leafOver, overOf, textV]) (.str _)
      have k1 : timeArg env (textV (timeStr) mx) = .ok mx := by
        cases mx with
        | none => rfl
        | some d => simp only [textV, timeArg, parse_carriedTime (hl.2 d rfl)]
      have k2 : timeArg env (textV (timeStr) mn) = .ok mn := by
        cases mn with
        | none => rfl
        | some d => simp only [textV, timeArg, parse_carriedTime (hl.1 d rfl)]
      simp only [Leaf.isEmail, Bool.false_eq_true, if_false] at hc
      simp only [leafType, initField_time, hc, except_bind_ok, h1, h2, k1, k2]
      rfl
  | datetime mn mx utc =>
    refine leaf_shell verbose h [c!"minimum", c!"maximum", c!"utc"] (by simp only [leafTable, List.map_cons, List.map_nil]; decide)
      ?_ ?_ ?_ ?_
    · intro e he
      simp only [leafTable, List.mem_cons, List.not_mem_nil, or_false] at he
      rcases he with rfl | rfl | rfl
      · refine ⟨by simp [ownKeys], ?_⟩
        cases mx with
        | none => exact .inr .none
        | some d => simp [leafOver, overOf]
      · refine ⟨by simp [ownKeys], ?_⟩
        cases mn with
        | none => exact .inr .none
        | some d => simp [leafOver, overOf]
      · exact ⟨by simp [ownKeys], .inr (.bool _)⟩
    · cases mn <;> cases mx <;> simp [leafOver, overOf]
    · cases mn <;> cases mx <;> simp [leafOver, overOf, ownKeys]
    · intro d args c' hn hc
      have h1 : args.get c!"maximum" = .ok (textV (dateTimeStr env.padYear) mx) := by
        cases mx with
        | none => exact hn.plain _ .none (by simp [leafTable]) (by cases mn <;> simp [leafOver, overOf]) .none
        | some d => exact hn.givenVal (by cases mn <;> simp [leafOver, overOf, textV]) (.str _)
      have h2 : args.get c!"minimum" = .ok (textV (dateTimeStr env.padYear) mn) := by
        cases mn with
        | none => exact hn.plain _ .none (by simp [leafTable]) (by cases mx <;> simp [leafOver, overOf]) .none
        | some d => exact hn.givenVal (by cases mx <;> simp [leafOver, overOf, textV]) (.str _)
      have h3 := hn.flag c!"utc" utc false (by simp [leafTable]) (by cases mn <;> cases mx <;> simp [leafOver, overOf])
      have key : ∀ b : Option PDateTime, (∀ d, b = some d → utc = true ∧ d.tz = some .utc ∧ CarriedDate env d.date ∧ CarriedTime d.time) →
          dateTimeArg env utc (textV (dateTimeStr env.padYear) b) = .ok b := by
        intro b hb
        cases b with
        | none => rfl
        | some d =>
          obtain ⟨h1, h2, h3, h4⟩ := hb d rfl
          simp only [textV, dateTimeArg, parse_carriedDateTime h3 h4 h2, normalizeDT, h2, h1, if_true]
      have k1 := key mx fun d hd => hl d (.inr hd)
      have k2 := key mn fun d hd => hl d (.inl hd)
      simp only [Leaf.isEmail, Bool.false_eq_true, if_false] at hc
      simp only [leafType, initField_datetime, hc, except_bind_ok, h1, h2, h3, k1, k2]
      rfl
  | decimal mn mx =>
    refine leaf_shell verbose h [c!"minimum", c!"maximum"] (by simp [leafTable]) (by simp [leafTable]) ?_ ?_ ?_
    · cases mn <;> cases mx <;> simp [leafOver, overOf]
    · cases mn <;> cases mx <;> simp [leafOver, overOf, ownKeys]
    · intro d args c' hn hc
      have h1 : args.get c!"maximum" = .ok (textV (decStr) mx) := by
        cases mx with
        | none => exact Args.get_absent (hn.absent _ (by simp [ownKeys]) (by simp [leafTable]) (by cases mn <;> simp [leafOver, overOf]))
        | some d => exact hn.givenVal (by cases mn <;> simp [leafOver, overOf, textV]) (.str _)
      have h2 : args.get c!"minimum" = .ok (textV (decStr) mn) := by
        cases mn with
        | none => exact Args.get_absent (hn.absent _ (by simp [ownKeys]) (by simp [leafTable]) (by cases mx <;> simp [leafOver, overOf]))
        | some d => exact hn.givenVal (by cases mx <;> simp [leafOver, overOf, textV]) (.str _)
      have key : ∀ b : Option Dec, decArg env (textV (decStr) b) = .ok b := by
        intro b
        cases b with
        | none => rfl
        | some d => simp only [textV, decArg, parseDec_decStr]
      simp only [Leaf.isEmail, Bool.false_eq_true, if_false] at hc
      simp only [leafType, initField_decimal, hc, except_bind_ok, h1, h2, key]
      rfl
  | definition valid =>
    refine leaf_shell verbose h [c!"valid_fields"] (by simp only [leafTable, List.map_cons, List.map_nil]; decide)
      ?_ (by simp [leafOver]) (by simp [leafOver]) ?_
    · intro e he
      simp only [leafTable, List.mem_cons, List.not_mem_nil, or_false] at he
      subst he
      exact ⟨by simp [ownKeys], .inr (plain_typesV _)⟩
    · intro d args c' hn hc
      have h1 := hn.plain c!"valid_fields" (typesV valid) (by simp [leafTable]) (by simp [leafOver]) (plain_typesV _)
      simp only [Leaf.isEmail, Bool.false_eq_true, if_false] at hc
      simp only [leafType, initField_definition, hc, except_bind_ok, h1, typesArg_typesV hl]
      rfl
  | surrogate valid =>
    refine leaf_shell verbose h [c!"valid_surrogates"] (by simp only [leafTable, List.map_cons, List.map_nil]; decide)
      ?_ (by simp [leafOver]) (by simp [leafOver]) ?_
    · intro e he
      simp only [leafTable, List.mem_cons, List.not_mem_nil, or_false] at he
      subst he
      exact ⟨by simp [ownKeys], .inr (plain_typesV _)⟩
    · intro d args c' hn hc
      have h1 := hn.plain c!"valid_surrogates" (typesV valid) (by simp [leafTable]) (by simp [leafOver]) (plain_typesV _)
      simp only [Leaf.isEmail, Bool.false_eq_true, if_false] at hc
      simp only [leafType, initField_surrogate, hc, except_bind_ok, h1, surrogatesArg_typesV]
      rfl
  | email mn mx multiple extended =>
    refine leaf_shell verbose h [c!"multiple", c!"extended", c!"pattern", c!"strip", c!"errors", c!"min_length", c!"max_length"]
      (by simp only [leafTable, List.map_cons, List.map_nil]; decide) ?_ (by simp [leafOver]) (by simp [leafOver]) ?_
    · intro e he
      simp only [leafTable, List.mem_cons, List.not_mem_nil, or_false] at he
      rcases he with rfl | rfl | rfl | rfl | rfl
      · exact ⟨by simp [ownKeys], .inr (plain_natV _)⟩
      · exact ⟨by simp [ownKeys], .inr (plain_natV _)⟩
      · exact ⟨by simp [ownKeys], .inr (.bool _)⟩
      · exact ⟨by simp [ownKeys], .inr (.bool _)⟩
      · exact ⟨by simp [ownKeys], .inr (.bool _)⟩
    · intro d args c' hn hc
      have h1 := hn.plain c!"min_length" (natV mn) (by simp [leafTable]) (by simp [leafOver]) (plain_natV _)
      have h2 := hn.plain c!"max_length" (natV mx) (by simp [leafTable]) (by simp [leafOver]) (plain_natV _)
      have h3 := hn.flag c!"multiple" multiple false (by simp [leafTable]) (by simp [leafOver])
      have h4 := hn.flag c!"extended" extended false (by simp [leafTable]) (by simp [leafOver])
      simp only [Leaf.isEmail, if_true] at hc
      have hme : (multiple && extended) = false := by
        cases hm : multiple <;> cases he : extended <;> simp_all [CarriedLeaf]
      simp only [leafType, initField_email, hc, except_bind_ok, h1, h2, h3, h4, hme, hn.common.nonempty, minArg_false, lenArg_natV,
        Bool.false_eq_true, if_false]
      rfl
  | enumeration vals ign =>
    refine leaf_shell verbose h [c!"enumeration", c!"ignored_values"] (by simp only [leafTable, List.map_cons, List.map_nil]; decide)
      ?_ (by simp [leafOver]) (by simp [leafOver]) ?_
    · intro e he
      simp only [leafTable, List.mem_cons, List.not_mem_nil, or_false] at he
      subst he
      exact ⟨by simp [ownKeys], .inr (.list hl.1)⟩
    · intro d args c' hn hc
      have h1 := hn.plain c!"enumeration" (.list vals) (by simp [leafTable]) (by simp [leafOver]) (.list hl.1)
      have h2 := Args.get_absent (hn.absent c!"ignored_values" (by simp [ownKeys]) (by simp [leafTable]) (by simp [leafOver]))
      have h3 : vals.all nativeType = true := by
        rw [List.all_eq_true]; exact fun v hv => nativeType_plain (hl.1 v hv)
      simp only [Leaf.isEmail, Bool.false_eq_true, if_false] at hc
      simp only [leafType, initField_enumeration, hc, except_bind_ok, h1, h2, enumArg, h3, if_true, ignoredArg, hl.2]
      rfl
  | float mn mx =>
    refine leaf_shell verbose h [c!"minimum", c!"maximum"] (by simp only [leafTable, List.map_cons, List.map_nil]; decide)
      ?_ (by simp [leafOver]) (by simp [leafOver]) ?_
    · intro e he
      simp only [leafTable, List.mem_cons, List.not_mem_nil, or_false] at he
      rcases he with rfl | rfl <;> exact ⟨by simp [ownKeys], .inr (plain_floatV _)⟩
    · intro d args c' hn hc
      have h1 := hn.plain c!"minimum" (floatV mn) (by simp [leafTable]) (by simp [leafOver]) (plain_floatV _)
      have h2 := hn.plain c!"maximum" (floatV mx) (by simp [leafTable]) (by simp [leafOver]) (plain_floatV _)
      have key : ∀ b, floatArg (floatV b) = .ok b := fun b => by cases b <;> rfl
      simp only [Leaf.isEmail, Bool.false_eq_true, if_false] at hc
      simp only [leafType, initField_float, hc, except_bind_ok, h1, h2, key]
      rfl
  | integer mn mx =>
    refine leaf_shell verbose h [c!"minimum", c!"maximum"] (by simp only [leafTable, List.map_cons, List.map_nil]; decide)
      ?_ (by simp [leafOver]) (by simp [leafOver]) ?_
    · intro e he
      simp only [leafTable, List.mem_cons, List.not_mem_nil, or_false] at he
      rcases he with rfl | rfl <;> exact ⟨by simp [ownKeys], .inr (plain_intV _)⟩
    · intro d args c' hn hc
      have h1 := hn.plain c!"minimum" (intV mn) (by simp [leafTable]) (by simp [leafOver]) (plain_intV _)
      have h2 := hn.plain c!"maximum" (intV mx) (by simp [leafTable]) (by simp [leafOver]) (plain_intV _)
      have key : ∀ b, intArg (intV b) = .ok b := fun b => by cases b <;> rfl
      simp only [Leaf.isEmail, Bool.false_eq_true, if_false] at hc
      simp only [leafType, initField_integer, hc, except_bind_ok, h1, h2, key]
      rfl
  | text pat mn mx strip =>
    refine leaf_shell verbose h [c!"pattern", c!"min_length", c!"max_length", c!"strip"]
      (by simp only [leafTable, List.map_cons, List.map_nil]; decide) ?_ (by simp [leafOver]) (by simp [leafOver]) ?_
    · intro e he
      simp only [leafTable, List.mem_cons, List.not_mem_nil, or_false] at he
      rcases he with rfl | rfl | rfl
      · exact ⟨by simp [ownKeys], .inr (plain_natV _)⟩
      · exact ⟨by simp [ownKeys], .inr (plain_natV _)⟩
      · exact ⟨by simp [ownKeys], .inr (.bool _)⟩
    · intro d args c' hn hc
      have h0 := Args.get_absent (hn.absent c!"pattern" (by simp [ownKeys]) (by simp [leafTable]) (by simp [leafOver]))
      have h1 := hn.plain c!"min_length" (natV mn) (by simp [leafTable]) (by simp [leafOver]) (plain_natV _)
      have h2 := hn.plain c!"max_length" (natV mx) (by simp [leafTable]) (by simp [leafOver]) (plain_natV _)
      have h3 := hn.flag c!"strip" strip true (by simp [leafTable]) (by simp [leafOver])
      simp only [Leaf.isEmail, Bool.false_eq_true, if_false] at hc
      simp only [leafType, initField_text, hc, except_bind_ok, h0, h1, h2, h3, hn.common.nonempty, minArg_false, lenArg_natV,
        Val.isNone, show pat = none from hl]
      rfl
  | token seg =>
    refine leaf_shell verbose h [c!"segments"] (by simp [leafTable]) (by simp [leafTable]) (by simp [leafOver]) (by simp [leafOver]) ?_
    intro d args c' hn hc
    have h0 := Args.get_absent (hn.absent c!"segments" (by simp [ownKeys]) (by simp [leafTable]) (by simp [leafOver]))
    simp only [Leaf.isEmail, Bool.false_eq_true, if_false] at hc
    simp only [leafType, initField_token, hc, except_bind_ok, h0, show seg = none from hl]
    rfl

/-! ### structural fields -/

/-- The value `v` is a description from which `f'` is made. -/
structure Rebuilds (env : Env) (v : Val) (f' : Field) : Prop where
  desc : descParam env v = .ok v
  shape : ∃ d : Desc, v = Desc.val d ∧ (d.lookup c!"fieldtype").isSome = true
  build : ∀ m, v.depth ≤ m → reconstruct env m v = .ok f'

theorem Rebuilds.reads {v : Val} {f' : Field} (h : Rebuilds env v f') : Reads env v (.field f') := by
  refine ⟨h.desc, fun m hm => ?_⟩
  obtain ⟨d, rfl, hd⟩ := h.shape
  cases m with
  | zero => exact absurd hm (Nat.not_lt_zero _)
  | succ m =>
    have hb := h.build m (Nat.le_of_lt_succ hm)
    show constructStep env (constructArg env m) (Desc.val d) = _
    have hb : reconstructDict env (constructArg env m) (d.map fun e => (.str e.1, e.2)) = .ok f' := hb
    have hd' : (dictGet (d.map fun e => (Val.str e.1, e.2)) (.str c!"fieldtype")).isSome = true := by rw [dictGet_desc]; exact hd
    simp only [Desc.val, constructStep, hb, hd', if_true]
    rfl

theorem node_rebuilds {own : List Str} {t : Str} {c : Common} {table : List (Str × Val × Val)} {over : List (Str × Val)}
    {d : Desc} {args : Args} {f' : Field} (h : NodeArgs env own t c table over d args) (hf : initField env t args = .ok f') :
    Rebuilds env (Desc.val d) f' := by
  refine ⟨?_, ⟨d, rfl, by rw [h.type]; rfl⟩, fun m hm => (h.init m hm).trans hf⟩
  have : descEntries env (d.map fun e => (Val.str e.1, e.2)) = .ok (d.map fun e => (Val.str e.1, e.2)) := by
    refine descEntries_self fun e he => ?_
    obtain ⟨x, hx, rfl⟩ := List.mem_map.1 he
    obtain ⟨a, ha⟩ := h.good x hx
    exact ha.desc
  simp only [Desc.val, descParam, this]; rfl

/-- The description `v` gives a field behaving like `g`. -/
def Comes (env : Env) (g : Field) (v : Val) : Prop := ∃ g', Rebuilds env v g' ∧ Same env g g' ∧ ∀ s, g' ≠ .undef s

variable {rec : DescRec}

theorem descChild_ok {f : Field} {v : Val} : descChild env rec f = .ok v ↔ ∃ g, resolve env f = some g ∧ rec g = .ok v := by
  unfold descChild
  cases resolve env f <;> simp

/-- What the induction hypothesis says. -/
def AllCome (env : Env) (rec : DescRec) (g : Field) : Prop := ∀ v, rec g = .ok v → Comes env g v

theorem descChild_comes {f : Field} {v : Val} (h : descChild env rec f = .ok v)
    (hr : ∀ g, resolve env f = some g → AllCome env rec g) :
    ∃ f', Reads env v (.field f') ∧ SameChild env f f' := by
  obtain ⟨g, h1, h2⟩ := descChild_ok.1 h
  obtain ⟨g', h3, h4, h5⟩ := hr g h1 v h2
  exact ⟨g', h3.reads, g, g', h1, resolve_of_defined h5, h4⟩

theorem argVals_field {f : Field} (l : List Arg) : argVals (.field f :: l) = none := rfl

theorem fieldArgs_fields (l : List Field) : fieldArgs (l.map .field) = .ok l := by
  induction l with
  | nil => rfl
  | cons f r ih => simp only [List.map_cons, fieldArgs, ih]; rfl

/-- Items are read one by one. -/
theorem reads_items {l : List Val} {as : List Arg} (h : All2 (Reads env) l as) :
    descItems env l = .ok l ∧ ∀ m, depthL l < m → constructItems (constructArg env m) l = .ok as := by
  induction h with
  | nil => exact ⟨by simp [descItems], fun _ _ => rfl⟩
  | cons h _ ih =>
    refine ⟨by simp only [descItems, h.desc, ih.1]; rfl, fun m hm => ?_⟩
    rw [depthL] at hm
    simp only [constructItems, h.read m (by omega), ih.2 m (by omega)]
    rfl

theorem reads_list {l : List Val} {as : List Arg} (h : All2 (Reads env) l as) : Reads env (.list l) (.ofList as) := by
  obtain ⟨h1, h2⟩ := reads_items h
  refine ⟨by simp only [descParam, h1]; rfl, fun m hm => ?_⟩
  cases m with
  | zero => exact absurd hm (Nat.not_lt_zero _)
  | succ m =>
    simp only [Val.depth] at hm
    exact construct_list (h2 m (by omega))

theorem reads_dict {d : List (Val × Val)} {as : List (Val × Arg)} (h : All2 (fun e a => e.1 = a.1 ∧ Reads env e.2 a.2) d as)
    (hf : ∀ e ∈ d, e.1 ≠ .str c!"fieldtype") : Reads env (.dict d) (.ofDict as) := by
  have key : descEntries env d = .ok d ∧ ∀ m, depthD d < m → constructEntries (constructArg env m) d = .ok as := by
    clear hf
    induction h with
    | nil => exact ⟨by simp [descEntries], fun _ _ => rfl⟩
    | @cons a b l m h _ ih =>
      obtain ⟨k, v⟩ := a
      obtain ⟨k', a⟩ := b
      obtain ⟨hk, h⟩ := h
      simp only at hk h
      subst hk
      refine ⟨by simp only [descEntries, h.desc, ih.1]; rfl, fun m hm => ?_⟩
      rw [depthD] at hm
      simp only [constructEntries, h.read m (by omega), ih.2 m (by omega)]
      rfl
  refine ⟨by simp only [descParam, key.1]; rfl, fun m hm => ?_⟩
  cases m with
  | zero => exact absurd hm (Nat.not_lt_zero _)
  | succ m =>
    simp only [Val.depth] at hm
    exact construct_dict hf (key.2 m (by omega))

theorem argEntries_some {l : List (Val × Arg)} {d : List (Val × Val)} (h : argEntries l = some d) :
    l = d.map fun e => (e.1, .val e.2) := by
  induction l generalizing d with
  | nil => simp only [argEntries, Option.some.injEq] at h; subst h; rfl
  | cons e r ih =>
    obtain ⟨k, a⟩ := e
    cases a with
    | val v =>
      simp only [argEntries, Arg.val?, Option.bind_some, Option.map_eq_some_iff] at h
      obtain ⟨d', h1, rfl⟩ := h
      rw [ih h1]; rfl
    | _ => simp [argEntries, Arg.val?] at h

theorem dictArg_ofDict (l : List (Val × Arg)) : dictArg (some (.ofDict l)) = .ok l := by
  unfold Arg.ofDict
  cases h : argEntries l with
  | none => rfl
  | some d => simp only [dictArg]; rw [argEntries_some h]

theorem descList_comes {l : List Field} {vs : List Val} (h : descList env rec l = .ok vs)
    (hr : ∀ f ∈ l, ∀ g, resolve env f = some g → AllCome env rec g) :
    ∃ l', All2 (Reads env) vs (l'.map .field) ∧ All2 (SameChild env) l l' := by
  induction l generalizing vs with
  | nil => simp only [descList, Except.ok.injEq] at h; subst h; exact ⟨[], .nil, .nil⟩
  | cons f r ih =>
    simp only [descList, except_bind_eq_ok, except_pure, Except.ok.injEq] at h
    obtain ⟨v, h1, r', h2, rfl⟩ := h
    obtain ⟨f', h3, h4⟩ := descChild_comes h1 (hr f (List.mem_cons_self ..))
    obtain ⟨l', h5, h6⟩ := ih h2 fun f hf => hr f (List.mem_cons_of_mem _ hf)
    exact ⟨f' :: l', .cons h3 h5, .cons h4 h6⟩

theorem fieldsArg_ofList {l : List Field} (h : l ≠ []) : fieldsArg (some (.ofList (l.map .field))) = .ok l := by
  cases l with
  | nil => exact absurd rfl h
  | cons f r =>
    have : Arg.ofList ((f :: r).map .field) = .list ((f :: r).map .field) := rfl
    rw [this]
    exact fieldArgs_fields _

theorem descDefn_comes {l : List (Str × Field)} {m : List (Val × Val)} (h : descDefn env rec l = .ok m)
    (hn : ∀ e ∈ l, Named env e.2) (hr : ∀ e ∈ l, ∀ g, resolve env e.2 = some g → AllCome env rec g) :
    ∃ as l', All2 (fun e a => e.1 = a.1 ∧ Reads env e.2 a.2) m as ∧ defnArg as = .ok l' ∧ SameMembers env l l' ∧
      m.map (·.1) = l.map fun e => .str e.1 := by
  induction l generalizing m with
  | nil => simp only [descDefn, Except.ok.injEq] at h; subst h; exact ⟨[], [], .nil, rfl, .nil, rfl⟩
  | cons e r ih =>
    obtain ⟨name, f⟩ := e
    simp only [descDefn, except_bind_eq_ok, except_pure, Except.ok.injEq] at h
    obtain ⟨v, h1, r', h2, rfl⟩ := h
    obtain ⟨g, k1, k2⟩ := descChild_ok.1 h1
    obtain ⟨g', k3, k4, k5⟩ := hr _ (List.mem_cons_self ..) g k1 v k2
    obtain ⟨as, l', h5, h6, h7, h8⟩ := ih h2 (fun f hf => hn f (List.mem_cons_of_mem _ hf)) fun f hf => hr f (List.mem_cons_of_mem _ hf)
    obtain ⟨a, s, hna⟩ := hn _ (List.mem_cons_self ..) g k1
    have hnm : nameMember name g' = g' := nameMember_named (k4.name ▸ hna)
    refine ⟨(.str name, .field g') :: as, (name, g') :: l', .cons ⟨rfl, k3.reads⟩ h5, ?_,
      .cons ⟨rfl, g, g', k1, resolve_of_defined k5, k4⟩ h7, by simp [h8]⟩
    simp only [defnArg, h6, hnm]; rfl

/-- The identities stay what they are, in order. -/
theorem descVariants_ok {disc : Field} {vs : List (Val × List (Str × Field))} {d out : List (Val × Val)}
    (h : descVariants env rec disc vs d = .ok out) (hs : ∀ v ∈ vs, serializeOf env disc v.1 = .ok v.1)
    (hp : vs.Pairwise fun a b => pyEq b.1 a.1 = false) (hd : ∀ v ∈ vs, ∀ e ∈ d, pyEq v.1 e.1 = false) :
    ∃ ms, out = d ++ ms ∧ All2 (fun v m => m.1 = v.1 ∧ ∃ e, m.2 = .dict e ∧ descDefn env rec v.2 = .ok e) vs ms := by
  induction vs generalizing d with
  | nil => simp only [descVariants, Except.ok.injEq] at h; subst h; exact ⟨[], by simp, .nil⟩
  | cons v r ih =>
    obtain ⟨id, defn⟩ := v
    simp only [descVariants, hs _ (List.mem_cons_self ..), except_bind_eq_ok, Except.ok.injEq] at h
    obtain ⟨_, rfl, m, h1, h2⟩ := h
    have hset : ∀ d : List (Val × Val), (∀ e ∈ d, pyEq id e.1 = false) → dictSet d id (.dict m) = d ++ [(id, .dict m)] := by
      intro d hd
      induction d with
      | nil => rfl
      | cons e r ih =>
        obtain ⟨a, b⟩ := e
        have := hd _ (List.mem_cons_self ..)
        simp only at this
        simp only [dictSet, this, Bool.false_eq_true, if_false, ih fun e he => hd e (List.mem_cons_of_mem _ he), List.cons_append]
    rw [hset d fun e he => hd _ (List.mem_cons_self ..) e he] at h2
    rw [List.pairwise_cons] at hp
    obtain ⟨ms, h3, h4⟩ := ih h2 (fun v hv => hs v (List.mem_cons_of_mem _ hv)) hp.2 (by
      intro v hv e he
      rcases List.mem_append.1 he with he | he
      · exact hd v (List.mem_cons_of_mem _ hv) e he
      · simp only [List.mem_singleton] at he
        subst he
        exact hp.1 v hv)
    exact ⟨(id, .dict m) :: ms, by rw [h3, List.append_assoc]; rfl, .cons ⟨rfl, m, rfl, h1⟩ h4⟩

/-! ### defaults -/

theorem descParts_fixed {proc : Proc} {f : Field} {l l' : List Val}
    (hp : ∀ v ∈ l, ∀ g w, resolve env f = some g → proc g v .outbound true [] = .ok w → w = v)
    (h : descParts env proc f l = .ok l') : l' = l := by
  induction l generalizing l' with
  | nil => simp only [descParts, Except.ok.injEq] at h; exact h.symm
  | cons v r ih =>
    simp only [descParts, except_bind_eq_ok, except_pure, Except.ok.injEq] at h
    obtain ⟨v', h1, r', h2, rfl⟩ := h
    rw [ih (fun v hv => hp v (List.mem_cons_of_mem _ hv)) h2]
    unfold descPart at h1
    cases hg : resolve env f with
    | none => rw [hg] at h1; cases h1
    | some g =>
      rw [hg] at h1
      rw [hp v (List.mem_cons_self ..) g v' hg h1]

theorem descPartsD_fixed {proc : Proc} {f : Field} {l l' : List (Val × Val)}
    (hp : ∀ e ∈ l, ∀ g w, resolve env f = some g → proc g e.2 .outbound true [] = .ok w → w = e.2)
    (h : descPartsD env proc f l = .ok l') : l' = l := by
  induction l generalizing l' with
  | nil => simp only [descPartsD, Except.ok.injEq] at h; exact h.symm
  | cons e r ih =>
    obtain ⟨k, v⟩ := e
    simp only [descPartsD, except_bind_eq_ok, except_pure, Except.ok.injEq] at h
    obtain ⟨v', h1, r', h2, rfl⟩ := h
    rw [ih (fun v hv => hp v (List.mem_cons_of_mem _ hv)) h2]
    unfold descPart at h1
    cases hg : resolve env f with
    | none => rw [hg] at h1; cases h1
    | some g =>
      rw [hg] at h1
      have := hp _ (List.mem_cons_self ..) g v' hg h1
      simp only at this
      rw [this]

theorem descPartsT_fixed {proc : Proc} {fs : List Field} {l l' : List Val} (hlen : l.length ≤ fs.length)
    (hp : ∀ e ∈ fs.zip l, ∀ g w, resolve env e.1 = some g → proc g e.2 .outbound true [] = .ok w → w = e.2)
    (h : descPartsT env proc fs l = .ok l') : l' = l := by
  induction l generalizing fs l' with
  | nil =>
    cases fs <;> simp only [descPartsT, Except.ok.injEq] at h <;> exact h.symm
  | cons v r ih =>
    cases fs with
    | nil => simp at hlen
    | cons f fs =>
      simp only [descPartsT, except_bind_eq_ok, except_pure, Except.ok.injEq] at h
      obtain ⟨v', h1, r', h2, rfl⟩ := h
      rw [ih (by simpa using hlen) (fun v hv => hp v (by rw [List.zip_cons_cons]; exact List.mem_cons_of_mem _ hv)) h2]
      unfold descPart at h1
      cases hg : resolve env f with
      | none => rw [hg] at h1; cases h1
      | some g =>
        rw [hg] at h1
        have := hp (f, v) (by rw [List.zip_cons_cons]; exact List.mem_cons_self ..) g v' hg h1
        simp only at this
        rw [this]

theorem descStructParts_fixed {defn : List (Str × Field)} {d d' : List (Val × Val)} (hp : FixedDict env defn d)
    (h : descStructParts env defn d = .ok d') : d' = d := by
  induction d generalizing d' with
  | nil => simp only [descStructParts, Except.ok.injEq] at h; exact h.symm
  | cons e r ih =>
    obtain ⟨k, v⟩ := e
    cases k with
    | str name =>
      simp only [descStructParts] at h
      cases hl : defn.lookup name with
      | none => rw [hl] at h; cases h
      | some f =>
        rw [hl] at h
        simp only at h
        cases hg : resolve env f with
        | none => rw [hg] at h; cases h
        | some g =>
          rw [hg] at h
          simp only [except_bind_eq_ok, except_pure, Except.ok.injEq] at h
          obtain ⟨v', h1, r', h2, rfl⟩ := h
          rw [ih (fun e he => hp e (List.mem_cons_of_mem _ he)) h2]
          have := hp _ (List.mem_cons_self ..) name f g v' rfl hl hg h1
          simp only at this
          rw [this]
    | _ => simp [descStructParts] at h

theorem truthy_list {l : List Val} (h : l ≠ []) : (Val.list l).truthy = true := by
  cases l with
  | nil => exact absurd rfl h
  | cons => rfl
theorem truthy_tuple {l : List Val} (h : l ≠ []) : (Val.tuple l).truthy = true := by
  cases l with
  | nil => exact absurd rfl h
  | cons => rfl
theorem truthy_dict {l : List (Val × Val)} (h : l ≠ []) : (Val.dict l).truthy = true := by
  cases l with
  | nil => exact absurd rfl h
  | cons => rfl

theorem descStructDefault_fixed {defn : List (Str × Field)} {x v : Val}
    (hx : x = .none ∨ ∃ d, x = .dict d ∧ d ≠ [] ∧ FixedDict env defn d) (h : descStructDefault env defn x = .ok v) : v = x := by
  unfold descStructDefault at h
  rcases hx with rfl | ⟨d, rfl, hd, hp⟩
  · simp only [Val.truthy, Bool.not_false, if_true, Except.ok.injEq] at h; exact h.symm
  · simp only [truthy_dict hd, Bool.not_true, Bool.false_eq_true, if_false, except_bind_eq_ok, except_pure, Except.ok.injEq] at h
    obtain ⟨d', h1, rfl⟩ := h
    rw [descStructParts_fixed hp h1]

/-! ### all fields -/

theorem leaf_comes {verbose : Bool} {n : Nat} {c : Common} {k : Leaf} (h : Describable env (.leaf c k)) {v : Val}
    (hv : describe env verbose n (.leaf c k) = .ok v) : ∃ c', Rebuilds env v (.leaf c' k) ∧ SameUse c c' := by
  cases n with
  | zero => cases hv
  | succ n =>
    obtain ⟨d, args, c', h1, h2, h3, h4⟩ := describe_leaf verbose h
    have hv : descBase env verbose (leafType k) c false (leafTable k) (leafOver env k) = .ok v := hv
    rw [h1] at hv
    cases hv
    exact ⟨c', node_rebuilds h2 h3, h4⟩

theorem variantsArg_comes {disc disc' : Field} {ch : Char} {on : Str} {vs : List (Val × List (Str × Field))} {ms : List (Val × Val)}
    (h : All2 (fun v m => m.1 = v.1 ∧ ∃ e, m.2 = .dict e ∧ descDefn env rec v.2 = .ok e) vs ms)
    (hf : ∀ v ∈ vs, ∀ e ∈ v.2, e.1 ≠ c!"fieldtype")
    (hb : ∀ v ∈ vs, (∀ e ∈ v.2, Named env e.2) ∧
      ∃ m g, v.2.lookup (ch :: on) = some m ∧ resolve env m = some g ∧ Same env g (disc.setCommon fun c => { c with constant := v.1 }))
    (hdisc : ∀ id, Same env (disc.setCommon fun c => { c with constant := id }) (discFor env disc' id) ∧
      resolve env (discFor env disc' id) = some (discFor env disc' id))
    (hr : ∀ v ∈ vs, ∀ e ∈ v.2, ∀ g, resolve env e.2 = some g → AllCome env rec g) :
    ∃ as vs', All2 (fun e a => e.1 = a.1 ∧ Reads env e.2 a.2) ms as ∧ variantsArg env disc' (ch :: on) as = .ok vs' ∧
      SameVariants env vs vs' ∧ ms.map (·.1) = vs.map (·.1) ∧ as.map (·.1) = vs.map (·.1) := by
  induction h with
  | nil => exact ⟨[], [], .nil, rfl, .nil, rfl, rfl⟩
  | @cons v m vs ms h _ ih =>
    obtain ⟨id, defn⟩ := v
    obtain ⟨id', w⟩ := m
    obtain ⟨h1, e, h2, h3⟩ := h
    simp only at h1 h2 h3
    subst h1 h2
    obtain ⟨as, vs', k1, k2, k3, k4, k5⟩ := ih (fun v hv => hf v (List.mem_cons_of_mem _ hv)) (fun v hv => hb v (List.mem_cons_of_mem _ hv))
      fun v hv => hr v (List.mem_cons_of_mem _ hv)
    obtain ⟨hn, m, g, hl, hm, hs⟩ := hb _ (List.mem_cons_self ..)
    obtain ⟨bs, l', j1, j2, j3, j4⟩ := descDefn_comes h3 hn (hr _ (List.mem_cons_self ..))
    refine ⟨(id', .ofDict bs) :: as, (id', keySet (ch :: on) (discFor env disc' id') l') :: vs', .cons ⟨rfl, reads_dict j1 ?_⟩ k1, ?_,
      .cons ⟨rfl, keySet_same j3 hl hm (hdisc id').2 (hs.trans (hdisc id').1)⟩ k3, by simp [k4], by simp [k5]⟩
    · intro x hx hk
      have : Val.str c!"fieldtype" ∈ e.map (·.1) := List.mem_map.2 ⟨x, hx, hk⟩
      rw [j4] at this
      obtain ⟨y, hy, hk'⟩ := List.mem_map.1 this
      exact hf _ (List.mem_cons_self ..) y hy (by simpa using hk')
    · simp only [variantsArg, dictArg_ofDict, j2, k2, except_bind_ok]
      rfl

theorem describe_comes (verbose : Bool) (n : Nat) (f : Field) (hb : Everywhere env (Built env) f)
    (hd : Everywhere env (Describable env) f) : AllCome env (describe env verbose n) f := by
  induction n generalizing f with
  | zero => intro v h; cases h
  | succ n ih =>
    intro v h
    have hrec : ∀ g, Child env f g → AllCome env (describe env verbose n) g := fun g hg => ih g (hb.child hg) (hd.child hg)
    have hb0 := hb.here
    have hd0 := hd.here
    cases f with
    | undef s => cases h
    | leaf c k =>
      obtain ⟨c', h1, h2⟩ := leaf_comes hd0 h
      exact ⟨_, h1, same_leaf h2 k, fun s => nofun⟩
    | sequence c item mn mx u =>
      replace h : describeStep env verbose (describe env verbose n) (process env n) (.sequence c item mn mx u) = .ok v := h
      simp only [describeStep, except_bind_eq_ok] at h
      obtain ⟨dv, h1, iv, h2, h3⟩ := h
      have hc := hd0.common c rfl
      obtain ⟨hp, hx⟩ := hd0.default
      have hdv : dv = c.default := by
        unfold descSeqDefault at h1
        rcases hx with hx | ⟨l, hx, hl, hfix⟩
        · rw [hx] at h1 ⊢
          simp only [Val.truthy, Bool.not_false, if_true, Except.ok.injEq] at h1; exact h1.symm
        · rw [hx] at h1 ⊢
          simp only [truthy_list hl, Bool.not_true, Bool.false_eq_true, if_false, except_bind_eq_ok, except_pure, Except.ok.injEq,
            iterate] at h1
          obtain ⟨_, rfl, l', h4, rfl⟩ := h1
          rw [descParts_fixed (fun v hv g w hg => hfix v hv g hg n w) h4]
      subst hdv
      obtain ⟨item', k1, k2⟩ := descChild_comes h2 fun g hg => hrec g (.item hg)
      obtain ⟨d, args, e1, e2⟩ := descNode (env := env) verbose (t := c!"sequence") (by decide) true (own := ownKeys (.sequence c item mn mx u))
        (table := [(c!"min_length", natV mn, .none), (c!"max_length", natV mx, .none), (c!"unique", .bool u, .bool false)])
        (over := [(c!"item", iv), (c!"default", c.default)]) hc (ownKeys_ok _)
        (by simp only [List.map_cons, List.map_nil]; decide)
        (by
          intro e he
          simp only [List.mem_cons, List.not_mem_nil, or_false] at he
          rcases he with rfl | rfl | rfl
          · exact ⟨by simp [ownKeys], .inr (plain_natV _)⟩
          · exact ⟨by simp [ownKeys], .inr (plain_natV _)⟩
          · exact ⟨by simp [ownKeys], .inr (.bool _)⟩)
        (by simp only [List.map_cons, List.map_nil]; decide)
        (by
          intro e he
          simp only [List.mem_cons, List.not_mem_nil, or_false] at he
          rcases he with rfl | rfl
          · exact ⟨by simp [ownKeys], _, k1⟩
          · exact ⟨by simp, _, hp.reads⟩)
        hp (.inr (by simp))
      rw [e1] at h3
      cases h3
      obtain ⟨c', h4, h5⟩ := initCommon_ok (known := [c!"item", c!"min_length", c!"max_length", c!"unique"]) e2.common hc.pre hc.errors
      have a1 : args.lookup c!"item" = some (.field item') := by
        rcases e2.given c!"item" iv (by simp) _ k1 with h | ⟨rfl, _⟩
        · exact h
        · exact absurd (k1.unique PlainVal.none.reads) (fun h => nomatch h)
      have a2 := e2.plain c!"min_length" (natV mn) (by simp) (by simp) (plain_natV _)
      have a3 := e2.plain c!"max_length" (natV mx) (by simp) (by simp) (plain_natV _)
      have a4 := e2.flag c!"unique" u false (by simp) (by simp)
      refine ⟨.sequence c' item' mn mx u, node_rebuilds e2 ?_, same_sequence h5 k2 mn mx u, fun s => nofun⟩
      simp only [initField_sequence, h4, except_bind_ok, a1, a2, a3, a4, lenArg_natV, fieldArg]
      rfl
    | map c key value req =>
      replace h : describeStep env verbose (describe env verbose n) (process env n) (.map c key value req) = .ok v := h
      simp only [describeStep, except_bind_eq_ok] at h
      obtain ⟨dv, h1, vv, h2, kv, h0, h3⟩ := h
      have hc := hd0.common c rfl
      obtain ⟨hp, hx⟩ := hd0.default
      have hreq : ∀ v ∈ req, PlainVal v := hd0.parts
      have hdv : dv = c.default := by
        unfold descMapDefault at h1
        rcases hx with hx | ⟨l, hx, hl, hfix⟩
        · rw [hx] at h1 ⊢
          simp only [Val.truthy, Bool.not_false, if_true, Except.ok.injEq] at h1; exact h1.symm
        · rw [hx] at h1 ⊢
          simp only [truthy_dict hl, Bool.not_true, Bool.false_eq_true, if_false, except_bind_eq_ok, except_pure, Except.ok.injEq] at h1
          obtain ⟨l', h4, rfl⟩ := h1
          rw [descPartsD_fixed (fun v hv g w hg => hfix v hv g hg n w) h4]
      subst hdv
      obtain ⟨value', k1, k2⟩ := descChild_comes h2 fun g hg => hrec g (.value hg)
      have hkey : ∃ key', SameKey env key key' ∧ ((key = none ∧ kv = [] ∧ key' = none) ∨ ∃ x f', kv = [(c!"key", x)] ∧ key' = some f' ∧
          Reads env x (.field f')) := by
        cases key with
        | none => simp only [descKey, Except.ok.injEq] at h0; exact ⟨none, .none, .inl ⟨rfl, h0.symm, rfl⟩⟩
        | some k =>
          simp only [descKey] at h0
          cases hk : describe env verbose n k with
          | error e => rw [hk] at h0; cases h0
          | ok x =>
            rw [hk] at h0
            simp only [Except.map, Except.ok.injEq] at h0
            obtain ⟨f', r1, r2, _⟩ := hrec k .key x hk
            exact ⟨some f', .some r2, .inr ⟨x, f', h0.symm, rfl, r1.reads⟩⟩
      obtain ⟨key', hsk, hkv⟩ := hkey
      have kvn : ∀ e ∈ kv, e.1 = c!"key" ∧ ∃ a, Reads env e.2 a := by
        rcases hkv with ⟨_, rfl, _⟩ | ⟨x, f', rfl, _, hx⟩
        · simp
        · intro e he; simp only [List.mem_singleton] at he; subst he; exact ⟨rfl, _, hx⟩
      have kvl : kv.map (·.1) = [] ∨ kv.map (·.1) = [c!"key"] := by
        rcases hkv with ⟨_, rfl, _⟩ | ⟨x, f', rfl, _, hx⟩
        · exact .inl rfl
        · exact .inr rfl
      obtain ⟨d, args, e1, e2⟩ := descNode (env := env) verbose (t := c!"map") (by decide) true (own := ownKeys (.map c key value req))
        (table := [(c!"required_keys", listV req, .none)])
        (over := [(c!"value", vv), (c!"default", c.default)] ++ kv) hc (ownKeys_ok _)
        (by simp only [List.map_cons, List.map_nil]; decide)
        (by
          intro e he
          simp only [List.mem_cons, List.not_mem_nil, or_false] at he
          subst he
          exact ⟨by simp [ownKeys], .inr (plain_listV hreq)⟩)
        (by
          rw [List.map_append]
          rcases kvl with h | h <;> rw [h] <;> simp only [List.map_cons, List.map_nil] <;> decide)
        (by
          intro e he
          rcases List.mem_append.1 he with he | he
          · simp only [List.mem_cons, List.not_mem_nil, or_false] at he
            rcases he with rfl | rfl
            · exact ⟨by simp [ownKeys], _, k1⟩
            · exact ⟨by simp, _, hp.reads⟩
          · obtain ⟨h1, h2⟩ := kvn e he
            exact ⟨by rw [h1]; simp [ownKeys], h2⟩)
        hp (.inr (by simp))
      rw [e1] at h3
      cases h3
      obtain ⟨c', h4, h5⟩ := initCommon_ok (known := [c!"value", c!"key", c!"required_keys"]) e2.common hc.pre hc.errors
      have a1 : args.lookup c!"value" = some (.field value') := by
        rcases e2.given c!"value" vv (by simp) _ k1 with h | ⟨rfl, _⟩
        · exact h
        · exact absurd (k1.unique PlainVal.none.reads) (fun h => nomatch h)
      have a2 := e2.plain c!"required_keys" (listV req) (by simp) (by
        rw [List.map_append]
        rcases kvl with h | h <;> rw [h] <;> simp only [List.map_cons, List.map_nil] <;> decide) (plain_listV hreq)
      have a3 : keyArg (args.lookup c!"key") = .ok key' := by
        rcases hkv with ⟨_, rfl, rfl⟩ | ⟨x, f', rfl, rfl, hx⟩
        · rw [e2.absent c!"key" (by simp [ownKeys]) (by simp) (by simp)]; rfl
        · have : args.lookup c!"key" = some (.field f') := by
            rcases e2.given c!"key" x (by simp) _ hx with h | ⟨rfl, _⟩
            · exact h
            · exact absurd (hx.unique PlainVal.none.reads) (fun h => nomatch h)
          rw [this]; rfl
      have a4 : keysArg (listV req) = .ok req := by cases req <;> rfl
      refine ⟨.map c' key' value' req, node_rebuilds e2 ?_, same_map h5 hsk k2 req, fun s => nofun⟩
      simp only [initField_map, h4, except_bind_ok, a1, a2, a3, a4, fieldArg]
      rfl
    | tuple c values =>
      replace h : describeStep env verbose (describe env verbose n) (process env n) (.tuple c values) = .ok v := h
      simp only [describeStep, except_bind_eq_ok] at h
      obtain ⟨vs, h2, dv, h1, h3⟩ := h
      have hc := hd0.common c rfl
      obtain ⟨hp, hx⟩ := hd0.default
      have hne : values ≠ [] := hd0.parts
      have hdv : dv = c.default := by
        unfold descTupDefault at h1
        rcases hx with hx | ⟨l, hx, hl, hlen, hfix⟩
        · rw [hx] at h1 ⊢
          simp only [Val.truthy, Bool.not_false, if_true, Except.ok.injEq] at h1; exact h1.symm
        · rw [hx] at h1 ⊢
          simp only [truthy_tuple hl, Bool.not_true, Bool.false_eq_true, if_false, except_bind_eq_ok, except_pure, Except.ok.injEq,
            iterate] at h1
          obtain ⟨_, rfl, l', h4, rfl⟩ := h1
          rw [descPartsT_fixed hlen (fun e he g w hg => hfix e he g hg n w) h4]
      subst hdv
      obtain ⟨values', k1, k2⟩ := descList_comes h2 fun f hf g hg => hrec g (.tuple hf hg)
      have k3 := reads_list k1
      obtain ⟨d, args, e1, e2⟩ := descNode (env := env) verbose (t := c!"tuple") (by decide) true (own := ownKeys (.tuple c values))
        (table := []) (over := [(c!"values", .list vs), (c!"default", c.default)]) hc (ownKeys_ok _) (by simp) (by simp)
        (by simp only [List.map_cons, List.map_nil]; decide)
        (by
          intro e he
          simp only [List.mem_cons, List.not_mem_nil, or_false] at he
          rcases he with rfl | rfl
          · exact ⟨by simp [ownKeys], _, k3⟩
          · exact ⟨by simp, _, hp.reads⟩)
        hp (.inr (by simp))
      rw [e1] at h3
      cases h3
      obtain ⟨c', h4, h5⟩ := initCommon_ok (known := [c!"values"]) e2.common hc.pre hc.errors
      have hne' : values' ≠ [] := by rintro rfl; cases k2; exact hne rfl
      have a1 : args.lookup c!"values" = some (.ofList (values'.map .field)) := by
        rcases e2.given c!"values" (.list vs) (by simp) _ k3 with h | ⟨h, _⟩
        · exact h
        · cases h
      refine ⟨.tuple c' values', node_rebuilds e2 ?_, same_tuple h5 k2, fun s => nofun⟩
      simp only [initField_tuple, h4, except_bind_ok, a1, fieldsArg_ofList hne']
      rfl
    | union c fields =>
      replace h : describeStep env verbose (describe env verbose n) (process env n) (.union c fields) = .ok v := h
      simp only [describeStep, except_bind_eq_ok] at h
      obtain ⟨vs, h2, h3⟩ := h
      have hc := hd0.common c rfl
      have hp : PlainVal c.default := hd0.default
      have hne : fields ≠ [] := hd0.parts
      obtain ⟨fields', k1, k2⟩ := descList_comes h2 fun f hf g hg => hrec g (.union hf hg)
      have k3 := reads_list k1
      obtain ⟨d, args, e1, e2⟩ := descNode (env := env) verbose (t := c!"union") (by decide) true (own := ownKeys (.union c fields))
        (table := []) (over := [(c!"fields", .list vs)]) hc (ownKeys_ok _) (by simp) (by simp)
        (by simp only [List.map_cons, List.map_nil]; decide)
        (by
          intro e he
          simp only [List.mem_cons, List.not_mem_nil, or_false] at he
          subst he
          exact ⟨by simp [ownKeys], _, k3⟩)
        hp (.inl (by simp only [List.map_cons, List.map_nil]; decide))
      rw [e1] at h3
      cases h3
      obtain ⟨c', h4, h5⟩ := initCommon_ok (known := [c!"fields"]) e2.common hc.pre hc.errors
      have hne' : fields' ≠ [] := by rintro rfl; cases k2; exact hne rfl
      have a1 : args.lookup c!"fields" = some (.ofList (fields'.map .field)) := by
        rcases e2.given c!"fields" (.list vs) (by simp) _ k3 with h | ⟨h, _⟩
        · exact h
        · cases h
      refine ⟨.union c' fields', node_rebuilds e2 ?_, same_union h5 k2, fun s => nofun⟩
      simp only [initField_union, h4, except_bind_ok, a1, fieldsArg_ofList hne']
      rfl
    | «structure» c defn strict ko =>
      replace h : describeStep env verbose (describe env verbose n) (process env n) (.structure c defn strict ko) = .ok v := h
      simp only [describeStep, except_bind_eq_ok] at h
      obtain ⟨m, h2, dv, h1, h3⟩ := h
      have hc := hd0.common c rfl
      obtain ⟨hp, hx⟩ := hd0.default
      obtain ⟨rfl, hft⟩ : ko = [] ∧ ∀ e ∈ defn, e.1 ≠ c!"fieldtype" := hd0.parts
      have hdv := descStructDefault_fixed hx h1
      subst hdv
      obtain ⟨as, defn', k1, k2, k3, k4⟩ := descDefn_comes h2 hb0 fun e he g hg => hrec g (.member (n := e.1) he hg)
      have k5 := reads_dict k1 (by
        intro x hx hk
        have : Val.str c!"fieldtype" ∈ m.map (·.1) := List.mem_map.2 ⟨x, hx, hk⟩
        rw [k4] at this
        obtain ⟨y, hy, hk'⟩ := List.mem_map.1 this
        exact hft y hy (by simpa using hk'))
      obtain ⟨d, args, e1, e2⟩ := descNode (env := env) verbose (t := c!"structure") (by decide) true
        (own := ownKeys (.structure c defn strict [])) (table := [(c!"strict", .bool strict, .bool true)])
        (over := [(c!"default", c.default), (c!"polymorphic_on", .none), (c!"structure", .dict m)]) hc (ownKeys_ok _)
        (by simp only [List.map_cons, List.map_nil]; decide)
        (by
          intro e he
          simp only [List.mem_cons, List.not_mem_nil, or_false] at he
          subst he
          exact ⟨by simp [ownKeys], .inr (.bool _)⟩)
        (by simp only [List.map_cons, List.map_nil]; decide)
        (by
          intro e he
          simp only [List.mem_cons, List.not_mem_nil, or_false] at he
          rcases he with rfl | rfl | rfl
          · exact ⟨by simp, _, hp.reads⟩
          · exact ⟨by simp [ownKeys], _, PlainVal.none.reads⟩
          · exact ⟨by simp [ownKeys], _, k5⟩)
        hp (.inr (by simp))
      rw [e1] at h3
      cases h3
      obtain ⟨c', h4, h5⟩ := initCommon_ok (known := [c!"structure", c!"strict", c!"polymorphic_on", c!"generate_default", c!"key_order"])
        e2.common hc.pre hc.errors
      have a1 : args.lookup c!"structure" = some (.ofDict as) := by
        rcases e2.given c!"structure" (.dict m) (by simp) _ k5 with h | ⟨h, _⟩
        · exact h
        · cases h
      have a2 := e2.flag c!"strict" strict true (by simp) (by simp)
      have a3 := Args.get_absent (e2.absent c!"key_order" (by simp [ownKeys]) (by simp) (by simp))
      have a4 := Args.get_absent (e2.absent c!"generate_default" (by simp [ownKeys]) (by simp) (by simp))
      refine ⟨.structure c' defn' strict [], node_rebuilds e2 ?_, same_structure h5 k3 strict [], fun s => nofun⟩
      rw [initField_structure]
      unfold initStructure
      simp only [a1, dictArg_ofDict, a3, a4, h4, a2, except_bind_ok, Val.truthy, Bool.false_eq_true, if_false]
      rcases e2.given c!"polymorphic_on" .none (by simp) _ PlainVal.none.reads with h | ⟨_, h⟩
      · simp only [h, k2, except_bind_ok, Val.truthy, Bool.false_eq_true, if_false]; rfl
      · simp only [h, k2, except_bind_ok]; rfl
    | poly c disc variants strict ko =>
      replace h : describeStep env verbose (describe env verbose n) (process env n) (.poly c disc variants strict ko) = .ok v := h
      simp only [describeStep, except_bind_eq_ok] at h
      obtain ⟨m, h2, ov, h0, dv, h1, h3⟩ := h
      have hc := hd0.common c rfl
      obtain ⟨hp, hx⟩ := hd0.default
      have hparts := hd0.parts
      simp only [CarriedParts] at hparts
      obtain ⟨rfl, ⟨cd, kd, ch, on, rfl, hname, hreq⟩, hpw, hv⟩ := hparts
      have hdv : dv = c.default := by
        unfold descPolyDefault at h1
        rcases hx with hx | ⟨l, hx, hl, hfix⟩
        · rw [hx] at h1 ⊢
          simp only [Val.truthy, Bool.not_false, if_true, Except.ok.injEq] at h1; exact h1.symm
        · rw [hx] at h1 ⊢
          simp only [truthy_dict hl, Bool.not_true, Bool.false_eq_true, if_false] at h1
          split at h1
          · cases h1
          · split at h1
            · cases h1
            · next e he =>
              exact descStructDefault_fixed (.inr ⟨l, rfl, hl, hfix _ (List.mem_of_find?_eq_some he)⟩) h1
      subst hdv
      obtain ⟨cd', r1, r2⟩ := leaf_comes (hd.child .disc).here h0
      have hname' : cd'.name = some (ch :: on) := r2.name ▸ hname
      obtain ⟨_, hbv⟩ := hb0
      obtain ⟨ms, hm0, hms⟩ := descVariants_ok h2 (fun v h => (hv v h).2.2.1) hpw (fun _ _ e he => nomatch he)
      rw [List.nil_append] at hm0
      subst hm0
      obtain ⟨as, vs', k1, k2, k3, k4, k6⟩ := variantsArg_comes (disc := .leaf cd kd) (ch := ch) (on := on)
        (disc' := .leaf { cd' with required := true } kd) hms (fun v h => (hv v h).2.2.2)
        (fun v h => by
          obtain ⟨h1, h2⟩ := hbv v h
          refine ⟨h1, ?_⟩
          simpa only [Field.name, Field.common?, Option.bind_some, hname, Option.getD_some] using h2)
        (fun id => ⟨same_leaf (c := { cd with constant := id })
            (c' := { cd' with required := true, constant := id, aspects := cloneAspects env kd cd'.aspects })
            ⟨r2.name, r2.default, rfl, r2.nonnull, r2.ignoreNull, hreq, r2.pre, r2.errors⟩ kd, rfl⟩)
        (fun v h e he g hg => hrec g (.variant (i := v.1) (n := e.1) h he hg))
      have hkeys : ∀ k : Str, (∀ v ∈ variants, v.1 ≠ .str k) → ∀ e ∈ m, e.1 ≠ .str k := by
        intro k hk e he h
        have : Val.str k ∈ m.map (·.1) := List.mem_map.2 ⟨e, he, h⟩
        rw [k4] at this
        obtain ⟨v, hv', h'⟩ := List.mem_map.1 this
        exact hk v hv' h'
      have k5 := reads_dict k1 (hkeys _ fun v h => (hv v h).1)
      obtain ⟨d, args, e1, e2⟩ := descNode (env := env) verbose (t := c!"structure") (by decide) true
        (own := ownKeys (.poly c (.leaf cd kd) variants strict [])) (table := [(c!"strict", .bool strict, .bool true)])
        (over := [(c!"default", c.default), (c!"polymorphic_on", ov), (c!"structure", .dict m)]) hc (ownKeys_ok _)
        (by simp only [List.map_cons, List.map_nil]; decide)
        (by
          intro e he
          simp only [List.mem_cons, List.not_mem_nil, or_false] at he
          subst he
          exact ⟨by simp [ownKeys], .inr (.bool _)⟩)
        (by simp only [List.map_cons, List.map_nil]; decide)
        (by
          intro e he
          simp only [List.mem_cons, List.not_mem_nil, or_false] at he
          rcases he with rfl | rfl | rfl
          · exact ⟨by simp, _, hp.reads⟩
          · exact ⟨by simp [ownKeys], _, r1.reads⟩
          · exact ⟨by simp [ownKeys], _, k5⟩)
        hp (.inr (by simp))
      rw [e1] at h3
      cases h3
      obtain ⟨c', h4, h5⟩ := initCommon_ok (known := [c!"structure", c!"strict", c!"polymorphic_on", c!"generate_default", c!"key_order"])
        e2.common hc.pre hc.errors
      have a1 : args.lookup c!"structure" = some (.ofDict as) := by
        rcases e2.given c!"structure" (.dict m) (by simp) _ k5 with h | ⟨h, _⟩
        · exact h
        · cases h
      have a2 := e2.flag c!"strict" strict true (by simp) (by simp)
      have a3 := Args.get_absent (e2.absent c!"key_order" (by simp [ownKeys]) (by simp) (by simp))
      have a4 := Args.get_absent (e2.absent c!"generate_default" (by simp [ownKeys]) (by simp) (by simp))
      have a5 : args.lookup c!"polymorphic_on" = some (.field (.leaf cd' kd)) := by
        rcases e2.given c!"polymorphic_on" ov (by simp) _ r1.reads with h | ⟨rfl, _⟩
        · exact h
        · exact absurd (r1.reads.unique PlainVal.none.reads) (fun h => nomatch h)
      have a6 : dictGet (as.map fun e => (e.1, Val.none)) (.str c!"*") = none := by
        rw [dictGet_str_none]
        intro hm
        rw [List.map_map] at hm
        obtain ⟨a, ha, hk⟩ := List.mem_map.1 hm
        have : Val.str c!"*" ∈ as.map (·.1) := List.mem_map.2 ⟨a, ha, hk⟩
        rw [k6] at this
        obtain ⟨w, hw, hk'⟩ := List.mem_map.1 this
        exact (hv w hw).2.1 hk'
      refine ⟨.poly c' (.leaf { cd' with required := true } kd) vs' strict [], node_rebuilds e2 ?_,
        same_poly h5 (same_leaf (c' := { cd' with required := true }) ⟨r2.name, r2.default, r2.constant, r2.nonnull, r2.ignoreNull, hreq, r2.pre, r2.errors⟩ kd) k3 strict [],
        fun s => nofun⟩
      rw [initField_structure]
      unfold initStructure
      simp only [a1, dictArg_ofDict, a3, a4, h4, a2, except_bind_ok, Val.truthy, Bool.false_eq_true, if_false, a5, Field.name,
        Field.common?, Option.bind_some, hname', a6, Option.isSome_none, Field.setCommon]
      rw [hname'] at k2
      simp only [k2]
      rfl

end

end Scheme
