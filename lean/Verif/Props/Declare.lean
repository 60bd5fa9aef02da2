import Verif.Props.Documented
import Verif.Props.SimpleFields
import Verif.Props.Integer
import Verif.Props.Binary
import Verif.Props.Text
import Verif.Props.Email
import Verif.Props.Null
import Verif.Props.Sequence
import Verif.Props.Enumeration
import Verif.Props.DecimalRead
import Verif.Props.Decimal
import Verif.Props.Import
import Verif.Spec.Declare

/-! C70: a field does what its declaration says. -/

namespace Scheme

/-! ### reading the arguments -/

theorem get_given {args : Args} {k : Str} {v : Val} (h : args.get k = .ok v) : (v = .none ∧ ∀ b, ¬ Gives args k b) ∨ Gives args k v := by
  unfold Args.get at h
  split at h
  · rename_i hl; cases h; exact .inl ⟨rfl, fun b hb => by have := hb.1; rw [hl] at this; cases this⟩
  · rename_i x hl
    cases h
    cases hv : v.isNone with
    | true =>
      have := (isNone_iff v).1 hv
      subst this
      exact .inl ⟨rfl, fun b hb => by have := hb.1; rw [hl] at this; exact hb.2 (by cases this; rfl)⟩
    | false => exact .inr ⟨hl, fun h => by rw [h] at hv; cases hv⟩
  · cases h

theorem Gives.unique {args : Args} {k : Str} {a b : Val} (h : Gives args k a) (h' : Gives args k b) : b = a := by
  have := h'.1; rw [h.1] at this; cases this; rfl

theorem flag_sets {args : Args} {k : Str} : args.flag k false = true ↔ Sets args k := by
  unfold Args.flag Sets
  cases args.lookup k with
  | none => simp
  | some a =>
    cases a <;> simp

theorem initCommon_plain {known : List Str} {args : Args} {c : Common} (h : initCommon known args = .ok c) :
    c.pre = none ∧ c.errors = [] ∧ args.get c!"constant" = .ok c.constant ∧ args.get c!"default" = .ok c.default := by
  unfold initCommon at h
  obtain ⟨nm, _, h⟩ := except_bind_eq_ok.1 h
  dsimp only at h
  split at h
  rotate_left 2
  · cases h
  all_goals
    obtain ⟨_, _, h⟩ := except_bind_eq_ok.1 h
    obtain ⟨_, _, h⟩ := except_bind_eq_ok.1 h
    obtain ⟨_, h1, h⟩ := except_bind_eq_ok.1 h
    obtain ⟨_, h2, h⟩ := except_bind_eq_ok.1 h
    obtain ⟨_, _, h⟩ := except_bind_eq_ok.1 h
    obtain ⟨_, _, h⟩ := except_bind_eq_ok.1 h
    obtain ⟨_, _, h⟩ := except_bind_eq_ok.1 h
    obtain ⟨_, _, h⟩ := except_bind_eq_ok.1 h
    obtain ⟨_, _, h⟩ := except_bind_eq_ok.1 h
    obtain ⟨_, _, h⟩ := except_bind_eq_ok.1 h
    split at h
    · cases h
    · split at h
      · cases h
      · obtain ⟨_, _, h⟩ := except_bind_eq_ok.1 h
        cases h
        exact ⟨rfl, rfl, h2, h1⟩

/-- The constant of the field is the declared one. -/
theorem initCommon_const {known : List Str} {args : Args} {c : Common} (h : initCommon known args = .ok c) (v : Val) :
    ConstOk c v ↔ MeetsConstant args v := by
  obtain ⟨-, -, hk, -⟩ := initCommon_plain h
  unfold ConstOk MeetsConstant
  rcases get_given hk with ⟨h1, h2⟩ | hg
  · exact ⟨fun _ b hb => absurd hb (h2 b), fun _ => .inl h1⟩
  · constructor
    · rintro (h | h) b hb
      · exact absurd h hg.2
      · rw [hg.unique hb]; exact h
    · exact fun h => .inr (h _ hg)

/-- A bound of the field is the declared one. -/
theorem bound_iff {α : Type} {args : Args} {k : Str} {v : Val} {o : Option α} {parse : Val → Except Exn (Option α)} {R : Val → α → Prop}
    (hv : args.get k = .ok v) (ho : parse v = .ok o) (h0 : parse .none = .ok none)
    (hR : ∀ v, v ≠ .none → ∀ o, parse v = .ok o → ∃ m, o = some m ∧ ∀ m', R v m' ↔ m' = m) (P : α → Prop) :
    (∀ m, o = some m → P m) ↔ ∀ b m, Gives args k b → R b m → P m := by
  rcases get_given hv with ⟨rfl, h2⟩ | hg
  · rw [h0] at ho; cases ho
    exact ⟨fun _ b _ hb => absurd hb (h2 b), fun _ m hm => by cases hm⟩
  · obtain ⟨m, rfl, hm⟩ := hR v hg.2 o ho
    constructor
    · intro h b m' hb hr
      rw [hg.unique hb] at hr
      rw [(hm m').1 hr]; exact h m rfl
    · intro h m' hm'
      cases hm'
      exact h v m hg ((hm m).2 rfl)

/-- What a reader of bounds does. -/
structure Reader {α : Type} (parse : Val → Except Exn (Option α)) (R : Val → α → Prop) : Prop where
  none : parse .none = .ok none
  ok : ∀ v, v ≠ .none → ∀ o, parse v = .ok o → ∃ m, o = some m ∧ ∀ m', R v m' ↔ m' = m

theorem Reader.iff {α : Type} {args : Args} {k : Str} {v : Val} {o : Option α} {parse : Val → Except Exn (Option α)} {R : Val → α → Prop}
    (h : Reader parse R) (hv : args.get k = .ok v) (ho : parse v = .ok o) (P : α → Prop) :
    (∀ m, o = some m → P m) ↔ ∀ b m, Gives args k b → R b m → P m := bound_iff hv ho h.none h.ok P

theorem intArg_reader : Reader intArg IntGiven := by
  refine ⟨rfl, fun v hv o ho => ?_⟩
  unfold intArg at ho
  split at ho <;> cases ho
  · exact absurd rfl hv
  · rename_i i; exact ⟨i, rfl, fun m' => by simp [IntGiven, eq_comm]⟩
  · rename_i b; cases b
    · exact ⟨0, rfl, fun m' => by simp [IntGiven]⟩
    · exact ⟨1, rfl, fun m' => by simp [IntGiven]⟩

theorem lenArg_reader : Reader lenArg LengthGiven := by
  refine ⟨rfl, fun v hv o ho => ?_⟩
  unfold lenArg at ho
  split at ho
  · exact absurd rfl hv
  · rename_i i
    split at ho <;> cases ho
    refine ⟨_, rfl, fun m' => ?_⟩
    simp only [LengthGiven, IntGiven, Val.int.injEq, reduceCtorEq, false_and, or_false]
    omega
  · rename_i b; cases ho; cases b
    · exact ⟨0, rfl, fun m' => by simp [LengthGiven, IntGiven]⟩
    · exact ⟨1, rfl, fun m' => by simp [LengthGiven, IntGiven]⟩
  · cases ho

theorem floatArg_reader : Reader floatArg (fun v x => v = .float x) := by
  refine ⟨rfl, fun v hv o ho => ?_⟩
  unfold floatArg at ho
  split at ho <;> cases ho
  · exact absurd rfl hv
  · rename_i x; exact ⟨x, rfl, fun m' => by simp [eq_comm]⟩

theorem dateArg_reader (env : Env) : Reader (dateArg env) (DateGiven env) := by
  refine ⟨rfl, fun v hv o ho => ?_⟩
  unfold dateArg at ho
  split at ho
  · exact absurd rfl hv
  · rename_i x; cases ho; exact ⟨x, rfl, fun m' => by simp [DateGiven, eq_comm]⟩
  · cases ho
  · rename_i s
    split at ho <;> cases ho
    rename_i d hd
    refine ⟨d, rfl, fun m' => ?_⟩
    simp only [DateGiven, reduceCtorEq, Val.str.injEq, false_or, ← parseDate_iff]
    constructor
    · rintro ⟨_, rfl, h⟩; rw [hd] at h; cases h; rfl
    · rintro rfl; exact ⟨_, rfl, hd⟩
  · cases ho

theorem timeArg_reader (env : Env) : Reader (timeArg env) (TimeGiven env) := by
  refine ⟨rfl, fun v hv o ho => ?_⟩
  unfold timeArg at ho
  split at ho
  · exact absurd rfl hv
  · rename_i x; cases ho; exact ⟨x, rfl, fun m' => by simp [TimeGiven, eq_comm]⟩
  · rename_i s
    split at ho <;> cases ho
    rename_i d hd
    refine ⟨d, rfl, fun m' => ?_⟩
    simp only [TimeGiven, reduceCtorEq, Val.str.injEq, false_or, ← parseTime_iff]
    constructor
    · rintro ⟨_, rfl, h⟩; rw [hd] at h; cases h; rfl
    · rintro rfl; exact ⟨_, rfl, hd⟩
  · cases ho

theorem decArg_reader (env : Env) : Reader (decArg env) (DecGiven env) := by
  refine ⟨rfl, fun v hv o ho => ?_⟩
  unfold decArg at ho
  split at ho
  · exact absurd rfl hv
  · rename_i x; cases ho; exact ⟨x, rfl, fun m' => by simp [DecGiven, eq_comm]⟩
  · rename_i s
    split at ho <;> cases ho
    rename_i d hd
    refine ⟨d, rfl, fun m' => ?_⟩
    simp only [DecGiven, reduceCtorEq, Val.str.injEq, false_or, ← parseDec_iff]
    constructor
    · rintro ⟨_, rfl, h⟩; rw [hd] at h; cases h; rfl
    · rintro rfl; exact ⟨_, rfl, hd⟩
  · cases ho

/-- A datetime, or its text, in the zone of the field. -/
def InstantGiven (env : Env) (utc : Bool) (v : Val) (d' : PDateTime) : Prop :=
  ∃ d, (v = .datetime d ∨ ∃ s, v = .str s ∧ DateTimeText env.u s d ∧ CalendarDate d.date ∧ ClockTime d.time) ∧
    Normalized env utc d d'

theorem dateTimeArg_reader (env : Env) (utc : Bool) : Reader (dateTimeArg env utc) (InstantGiven env utc) := by
  refine ⟨rfl, fun v hv o ho => ?_⟩
  unfold dateTimeArg at ho
  split at ho
  · exact absurd rfl hv
  · rename_i x
    split at ho <;> cases ho
    rename_i d' hd
    refine ⟨d', rfl, fun m' => ?_⟩
    simp only [InstantGiven, ← normalizeDT_iff]
    constructor
    · rintro ⟨_, h | ⟨s, h, -⟩, hn⟩
      · cases h; rw [hd] at hn; cases hn; rfl
      · cases h
    · rintro rfl; exact ⟨x, .inl rfl, hd⟩
  · rename_i s
    split at ho
    · rename_i d hp
      split at ho <;> cases ho
      rename_i d' hd
      refine ⟨d', rfl, fun m' => ?_⟩
      simp only [InstantGiven, ← normalizeDT_iff, ← parseDateTime_iff]
      constructor
      · rintro ⟨_, h | ⟨s, h, h'⟩, hn⟩
        · cases h
        · cases h; rw [hp] at h'; cases h'; rw [hd] at hn; cases hn; rfl
      · rintro rfl; exact ⟨d, .inr ⟨s, rfl, hp⟩, hd⟩
    · cases ho
  · cases ho

/-- The minimum length with `nonempty` taken into account. -/
theorem minLen_iff {args : Args} {v : Val} {o : Option Nat} (hv : args.get c!"min_length" = .ok v)
    (ho : lenArg (minArg (args.flag c!"nonempty" false) v) = .ok o) (n : Nat) :
    (∀ m, o = some m → m ≤ n) ↔ (∀ b m, Gives args c!"min_length" b → LengthGiven b m → m ≤ n) ∧
      (Sets args c!"nonempty" → (∀ b, ¬ Gives args c!"min_length" b) → 1 ≤ n) := by
  rcases get_given hv with ⟨rfl, h2⟩ | hg
  · rw [← flag_sets]
    cases hf : args.flag c!"nonempty" false with
    | false =>
      rw [hf] at ho; cases ho
      exact ⟨fun _ => ⟨fun b _ hb => absurd hb (h2 b), fun h => by cases h⟩, fun _ m hm => by cases hm⟩
    | true =>
      rw [hf] at ho; cases ho
      exact ⟨fun h => ⟨fun b _ hb => absurd hb (h2 b), fun _ _ => h 1 rfl⟩, fun h m hm => by cases hm; exact h.2 rfl h2⟩
  · have : minArg (args.flag c!"nonempty" false) v = v := by
      have : v.isNone = false := by
        cases h : v.isNone
        · rfl
        · exact absurd ((isNone_iff v).1 h) hg.2
      simp [minArg, this]
    rw [this] at ho
    rw [lenArg_reader.iff hv ho (fun m => m ≤ n)]
    exact ⟨fun h => ⟨h, fun _ h2 => absurd hg (h2 _)⟩, fun h => h.1⟩

theorem lengths_iff {args : Args} {v v' : Val} {o o' : Option Nat} (hv : args.get c!"min_length" = .ok v)
    (hv' : args.get c!"max_length" = .ok v')
    (ho : lenArg (minArg (args.flag c!"nonempty" false) v) = .ok o) (ho' : lenArg v' = .ok o') (n : Nat) :
    ((∀ m, o = some m → m ≤ n) ∧ (∀ m, o' = some m → n ≤ m)) ↔ MeetsLength args n := by
  rw [minLen_iff hv ho n, lenArg_reader.iff hv' ho' (fun m => n ≤ m)]
  exact ⟨fun ⟨⟨a, b⟩, c⟩ => ⟨a, c, b⟩, fun ⟨a, c, b⟩ => ⟨⟨a, b⟩, c⟩⟩

theorem lookup_without_errors (args : Args) :
    (args.filter fun e => e.1 != c!"errors").lookup c!"constant" = args.lookup c!"constant" := by
  induction args with
  | nil => rfl
  | cons e r ih =>
    obtain ⟨k, x⟩ := e
    rw [List.filter_cons]
    split
    · rw [List.lookup_cons, List.lookup_cons, ih]
    · rename_i hk
      have hk : k = c!"errors" := by simpa using hk
      subst hk
      rw [ih, List.lookup_cons]; rfl

/-! ### what a declared field accepts -/

section
variable {env : Env} {args : Args} {f : Field} {n : Nat} {v w : Val} {anc : List Str}

/-- C70. An Integer accepts exactly the integers from the declared minimum to the declared maximum (a bound that is not
given, or given as None, does not restrict) that equal the declared constant. -/
theorem C70_integer (h : initField env c!"integer" args = .ok f) (hv : v ≠ .none) (ph : Phase) (ha : anc ≠ []) :
    process env (n + 1) f v ph false anc = .ok w ↔
      ∃ i, v = .int i ∧ w = v ∧ MeetsConstant args v ∧
        (∀ b m, Gives args c!"minimum" b → IntGiven b m → m ≤ i) ∧ (∀ b m, Gives args c!"maximum" b → IntGiven b m → i ≤ m) := by
  rw [initField_integer] at h
  obtain ⟨c, hc, h⟩ := except_bind_eq_ok.1 h
  obtain ⟨a, ha1, h⟩ := except_bind_eq_ok.1 h
  obtain ⟨b, hb1, h⟩ := except_bind_eq_ok.1 h
  obtain ⟨mn, hmn, h⟩ := except_bind_eq_ok.1 h
  obtain ⟨mx, hmx, h⟩ := except_bind_eq_ok.1 h
  cases h
  rw [C15_native_iff env n c mn mx (initCommon_plain hc).1 v w hv ph anc ha, initCommon_const hc]
  simp only [intArg_reader.iff ha1 hmn (fun m => m ≤ _), intArg_reader.iff hb1 hmx (fun m => _ ≤ m)]

/-- C70. A Float accepts exactly the floats neither below the declared minimum nor above the declared maximum. -/
theorem C70_float (h : initField env c!"float" args = .ok f) (hv : v ≠ .none) (ph : Phase) (ha : anc ≠ []) :
    process env (n + 1) f v ph false anc = .ok w ↔
      ∃ x, v = .float x ∧ w = v ∧ MeetsConstant args v ∧
        (∀ m, Gives args c!"minimum" (.float m) → ¬ FloatBelow x m) ∧ (∀ m, Gives args c!"maximum" (.float m) → ¬ FloatBelow m x) := by
  rw [initField_float] at h
  obtain ⟨c, hc, h⟩ := except_bind_eq_ok.1 h
  obtain ⟨a, ha1, h⟩ := except_bind_eq_ok.1 h
  obtain ⟨b, hb1, h⟩ := except_bind_eq_ok.1 h
  obtain ⟨mn, hmn, h⟩ := except_bind_eq_ok.1 h
  obtain ⟨mx, hmx, h⟩ := except_bind_eq_ok.1 h
  cases h
  rw [C60_float_native env n c (initCommon_plain hc).1 v w hv anc ha mn mx ph, initCommon_const hc]
  simp only [FloatWithin, floatArg_reader.iff ha1 hmn (fun m => ¬ FloatBelow _ m),
    floatArg_reader.iff hb1 hmx (fun m => ¬ FloatBelow m _)]
  constructor
  · rintro ⟨x, h1, h2, h3, h4, h5⟩; exact ⟨x, h1, h2, h3, fun m hm => h4 _ m hm rfl, fun m hm => h5 _ m hm rfl⟩
  · rintro ⟨x, h1, h2, h3, h4, h5⟩
    exact ⟨x, h1, h2, h3, fun b m hb hm => h4 m (hm ▸ hb), fun b m hb hm => h5 m (hm ▸ hb)⟩

/-- C70. A Decimal accepts exactly the decimals from the declared minimum to the declared maximum, which may be given as
decimals or as their texts. -/
theorem C70_decimal (h : initField env c!"decimal" args = .ok f) (hv : v ≠ .none) (ph : Phase) (ha : anc ≠ []) :
    process env (n + 1) f v ph false anc = .ok w ↔
      w = v ∧ MeetsConstant args v ∧ ∃ d, v = .decimal d ∧
        (∀ b m, Gives args c!"minimum" b → DecGiven env b m → DecLe m d) ∧
        (∀ b m, Gives args c!"maximum" b → DecGiven env b m → DecLe d m) := by
  rw [initField_decimal] at h
  obtain ⟨c, hc, h⟩ := except_bind_eq_ok.1 h
  obtain ⟨a, ha1, h⟩ := except_bind_eq_ok.1 h
  obtain ⟨b, hb1, h⟩ := except_bind_eq_ok.1 h
  obtain ⟨mn, hmn, h⟩ := except_bind_eq_ok.1 h
  obtain ⟨mx, hmx, h⟩ := except_bind_eq_ok.1 h
  cases h
  rw [C19_native_iff env n c mn mx (initCommon_plain hc).1 v w hv ph anc ha, initCommon_const hc]
  simp only [(decArg_reader env).iff ha1 hmn (fun m => DecLe m _), (decArg_reader env).iff hb1 hmx (fun m => DecLe _ m)]

/-- C70. A Date accepts exactly the dates from the declared minimum to the declared maximum, which may be given as dates
or as their texts; without bounds it accepts datetimes as well. -/
theorem C70_date (h : initField env c!"date" args = .ok f) (hv : v ≠ .none) (ph : Phase) (ha : anc ≠ []) :
    process env (n + 1) f v ph false anc = .ok w ↔
      w = v ∧ MeetsConstant args v ∧
      ((∃ d, v = .date d ∧ (∀ b m, Gives args c!"minimum" b → DateGiven env b m → ¬ DateBefore d m) ∧
          (∀ b m, Gives args c!"maximum" b → DateGiven env b m → ¬ DateBefore m d)) ∨
        (∃ d, v = .datetime d ∧ ∀ b, ¬ Gives args c!"minimum" b ∧ ¬ Gives args c!"maximum" b)) := by
  rw [initField_date] at h
  obtain ⟨c, hc, h⟩ := except_bind_eq_ok.1 h
  obtain ⟨a, ha1, h⟩ := except_bind_eq_ok.1 h
  obtain ⟨b, hb1, h⟩ := except_bind_eq_ok.1 h
  obtain ⟨mx, hmx, h⟩ := except_bind_eq_ok.1 h
  obtain ⟨mn, hmn, h⟩ := except_bind_eq_ok.1 h
  cases h
  rw [C16_native_iff env n c mn mx (initCommon_plain hc).1 v w hv ph anc ha, initCommon_const hc]
  simp only [(dateArg_reader env).iff ha1 hmn (fun m => ¬ DateBefore _ m), (dateArg_reader env).iff hb1 hmx (fun m => ¬ DateBefore m _)]
  have none_iff : ∀ {k : Str} {x : Val} {o : Option PDate}, args.get k = .ok x → dateArg env x = .ok o →
      (o = none ↔ ∀ b, ¬ Gives args k b) := by
    intro k x o hx ho
    rcases get_given hx with ⟨rfl, h2⟩ | hg
    · cases ho; exact ⟨fun _ => h2, fun _ => rfl⟩
    · obtain ⟨m, rfl, -⟩ := (dateArg_reader env).ok x hg.2 o ho
      exact ⟨fun h => (by cases h), fun h => absurd hg (h _)⟩
  rw [none_iff ha1 hmn, none_iff hb1 hmx]
  simp only [forall_and]

/-- C70. A Time accepts exactly the times from the declared minimum to the declared maximum, which may be given as times
or as their texts. -/
theorem C70_time (h : initField env c!"time" args = .ok f) (hclk : ∀ k t, Gives args k (.time t) → ClockTime t)
    (hv : v ≠ .none) (hvt : ∀ t, v = .time t → ClockTime t) (ph : Phase) (ha : anc ≠ []) :
    process env (n + 1) f v ph false anc = .ok w ↔
      w = v ∧ MeetsConstant args v ∧ ∃ t, v = .time t ∧
        (∀ b m, Gives args c!"minimum" b → TimeGiven env b m → microOfDay m ≤ microOfDay t) ∧
        (∀ b m, Gives args c!"maximum" b → TimeGiven env b m → microOfDay t ≤ microOfDay m) := by
  rw [initField_time] at h
  obtain ⟨c, hc, h⟩ := except_bind_eq_ok.1 h
  obtain ⟨a, ha1, h⟩ := except_bind_eq_ok.1 h
  obtain ⟨b, hb1, h⟩ := except_bind_eq_ok.1 h
  obtain ⟨mx, hmx, h⟩ := except_bind_eq_ok.1 h
  obtain ⟨mn, hmn, h⟩ := except_bind_eq_ok.1 h
  cases h
  have clk : ∀ {k : Str} {x : Val} {o : Option PTime}, args.get k = .ok x → timeArg env x = .ok o →
      ∀ m, o = some m → ClockTime m := by
    intro k x o hx ho
    rw [(timeArg_reader env).iff hx ho ClockTime]
    rintro b m hb (rfl | ⟨s, rfl, -, h⟩)
    · exact hclk _ _ hb
    · exact h
  rw [C17_native_iff env n c mn mx (initCommon_plain hc).1 (clk ha1 hmn) (clk hb1 hmx) v w hv hvt ph anc ha, initCommon_const hc]
  simp only [(timeArg_reader env).iff ha1 hmn (fun m => microOfDay m ≤ _), (timeArg_reader env).iff hb1 hmx (fun m => _ ≤ microOfDay m)]

/-- C70. A DateTime accepts exactly the datetimes that, in the zone it is declared for, do not lie before the declared
minimum or after the declared maximum in that zone; the datetime in that zone is returned. -/
theorem C70_datetime (h : initField env c!"datetime" args = .ok f) (utc : Bool) (hu : utc = true ↔ Sets args c!"utc")
    (hclock : ∀ d d', Normalized env utc d d' → ClockTime d.time → ClockTime d'.time)
    (hclk : ∀ k d, Gives args k (.datetime d) → ClockTime d.time)
    (hv : v ≠ .none) (hvt : ∀ d, v = .datetime d → ClockTime d.time) (ph : Phase) (ha : anc ≠ []) :
    process env (n + 1) f v ph false anc = .ok w ↔
      MeetsConstant args v ∧ ∃ d d', v = .datetime d ∧ Normalized env utc d d' ∧ w = .datetime d' ∧
        (∀ b m, Gives args c!"minimum" b → InstantGiven env utc b m → ¬ WallBefore d' m) ∧
        (∀ b m, Gives args c!"maximum" b → InstantGiven env utc b m → ¬ WallBefore m d') := by
  have hu : args.flag c!"utc" false = utc := by rw [Bool.eq_iff_iff, hu, flag_sets]
  rw [initField_datetime] at h
  dsimp only at h
  rw [hu] at h
  obtain ⟨c, hc, h⟩ := except_bind_eq_ok.1 h
  obtain ⟨a, ha1, h⟩ := except_bind_eq_ok.1 h
  obtain ⟨b, hb1, h⟩ := except_bind_eq_ok.1 h
  obtain ⟨mx, hmx, h⟩ := except_bind_eq_ok.1 h
  obtain ⟨mn, hmn, h⟩ := except_bind_eq_ok.1 h
  cases h
  have clk : ∀ {k : Str} {x : Val} {o : Option PDateTime}, args.get k = .ok x → dateTimeArg env utc x = .ok o →
      ∀ m, o = some m → ClockTime m.time := by
    intro k x o hx ho
    rw [(dateTimeArg_reader env utc).iff hx ho (fun m => ClockTime m.time)]
    rintro b m hb ⟨d, rfl | ⟨s, rfl, -, -, h⟩, hn⟩
    · exact hclock _ _ hn (hclk _ _ hb)
    · exact hclock _ _ hn h
  rw [C18_native_iff env n c mn mx utc (initCommon_plain hc).1 (clk ha1 hmn) (clk hb1 hmx) hclock v w hv hvt ph anc ha,
    initCommon_const hc]
  simp only [(dateTimeArg_reader env utc).iff ha1 hmn (fun m => ¬ WallBefore _ m),
    (dateTimeArg_reader env utc).iff hb1 hmx (fun m => ¬ WallBefore m _)]

/-- C70. A Binary accepts exactly the byte strings of the declared lengths. -/
theorem C70_binary (h : initField env c!"binary" args = .ok f) (hv : v ≠ .none) (ph : Phase) (ha : anc ≠ []) :
    process env (n + 1) f v ph false anc = .ok w ↔
      w = v ∧ MeetsConstant args v ∧ ∃ b, v = .bytes b ∧ MeetsLength args b.length := by
  rw [initField_binary] at h
  obtain ⟨c, hc, h⟩ := except_bind_eq_ok.1 h
  obtain ⟨a, ha1, h⟩ := except_bind_eq_ok.1 h
  obtain ⟨b, hb1, h⟩ := except_bind_eq_ok.1 h
  obtain ⟨mn, hmn, h⟩ := except_bind_eq_ok.1 h
  obtain ⟨mx, hmx, h⟩ := except_bind_eq_ok.1 h
  cases h
  rw [C20_native_iff env n c mn mx (initCommon_plain hc).1 v w hv ph anc ha, initCommon_const hc]
  simp only [lengths_iff ha1 hb1 hmn hmx]

/-- C70. A Text without pattern accepts exactly the texts that have a declared length once they are stripped (unless
`strip` is declared false); the stripped text is returned. -/
theorem C70_text (h : initField env c!"text" args = .ok f) (hv : v ≠ .none) (ph : Phase) (ser : Bool) (ha : anc ≠ []) :
    process env (n + 1) f v ph ser anc = .ok w ↔
      MeetsConstant args v ∧ ∃ s t, v = .str s ∧ w = .str t ∧
        (args.lookup c!"strip" = none ∨ Sets args c!"strip" → Stripped (isSpace env.u) s t) ∧
        (¬ (args.lookup c!"strip" = none ∨ Sets args c!"strip") → t = s) ∧
        MeetsLength args t.length := by
  rw [initField_text] at h
  obtain ⟨c, hc, h⟩ := except_bind_eq_ok.1 h
  obtain ⟨_, _, h⟩ := except_bind_eq_ok.1 h
  obtain ⟨a, ha1, h⟩ := except_bind_eq_ok.1 h
  obtain ⟨b, hb1, h⟩ := except_bind_eq_ok.1 h
  split at h
  · cases h
  obtain ⟨mn, hmn, h⟩ := except_bind_eq_ok.1 h
  obtain ⟨mx, hmx, h⟩ := except_bind_eq_ok.1 h
  cases h
  rw [C21_iff env n c none mn mx _ (initCommon_plain hc).1 v w hv ph ser anc ha, initCommon_const hc]
  have hs : args.flag c!"strip" true = true ↔ (args.lookup c!"strip" = none ∨ Sets args c!"strip") := by
    rw [← flag_sets]; unfold Args.flag
    cases args.lookup c!"strip" with
    | none => simp
    | some a => cases a <;> simp
  simp only [TextForm, ← hs, ← lengths_iff ha1 hb1 hmn hmx]
  have hite : ∀ {b : Bool} {p q : Prop}, (if b = true then p else q) ↔ (b = true → p) ∧ (¬ b = true → q) := by
    intro b p q; cases b <;> simp
  simp only [hite]
  constructor
  · rintro ⟨h1, s, t, h2, ⟨h3, h3'⟩, h4, h5, h6, -⟩; exact ⟨h1, s, t, h2, h4, h3, h3', h5, h6⟩
  · rintro ⟨h1, s, t, h2, h4, h3, h3', h5, h6⟩; exact ⟨h1, s, t, h2, ⟨h3, h3'⟩, h4, h5, h6, by simp⟩

/-- C70. An Email accepts, up to the normalisation of its kind and one trailing newline, nothing or what it is declared
for: an address, an extended address or a list of addresses, of a declared length. -/
theorem C70_email (h : initField env c!"email" args = .ok f) (hv : v ≠ .none) (ph : Phase) (ser : Bool) (ha : anc ≠ []) :
    process env (n + 1) f v ph ser anc = .ok w ↔
      MeetsConstant args w ∧ ∃ s t, v = .str s ∧ w = .str t ∧ MeetsLength args t.length ∧
        ∃ mult ext : Bool, (mult = true ↔ Sets args c!"multiple") ∧ (ext = true ↔ Sets args c!"extended") ∧
          EmailForm env.u mult ext s t ∧ ∃ a, (t = a ∨ t = a ++ ['\n']) ∧ EmailText mult ext a := by
  rw [initField_email] at h
  dsimp only at h
  split at h
  · cases h
  obtain ⟨c, hc, h⟩ := except_bind_eq_ok.1 h
  obtain ⟨a, ha1, h⟩ := except_bind_eq_ok.1 h
  obtain ⟨b, hb1, h⟩ := except_bind_eq_ok.1 h
  obtain ⟨mn, hmn, h⟩ := except_bind_eq_ok.1 h
  obtain ⟨mx, hmx, h⟩ := except_bind_eq_ok.1 h
  cases h
  have hconst : ConstOk c w ↔ MeetsConstant args w := by
    rw [initCommon_const hc]
    have := lookup_without_errors args
    unfold MeetsConstant Gives
    rw [this]
  rw [C54_iff env n c mn mx _ _ (initCommon_plain hc).1 v w hv ph ser anc ha, hconst]
  simp only [← lengths_iff ha1 hb1 hmn hmx]
  constructor
  · rintro ⟨h1, s, t, h2, h3, h4, h5, h6, h7⟩
    exact ⟨h1, s, t, h2, h3, ⟨h5, h6⟩, _, _, flag_sets, flag_sets, h4, h7⟩
  · rintro ⟨h1, s, t, h2, h3, ⟨h5, h6⟩, mult, ext, hm, he, h4, h7⟩
    have e1 : args.flag c!"multiple" false = mult := by
      rw [Bool.eq_iff_iff, hm]; exact flag_sets
    have e2 : args.flag c!"extended" false = ext := by
      rw [Bool.eq_iff_iff, he]; exact flag_sets
    rw [e1, e2]
    exact ⟨h1, s, t, h2, h3, h4, h5, h6, h7⟩

/-- C70. A Sequence of a field accepts a list exactly if its length is declared and the field accepts every item; with
`unique` the results must be hashable and all different.  Unlike for texts, `nonempty` does not ask for an item. -/
theorem C70_sequence (h : initField env c!"sequence" args = .ok f) {item g : Field}
    (hi : args.lookup c!"item" = some (.field item)) (hg : resolve env item = some g) (l : List Val)
    (ph : Phase) (ser : Bool) (ha : anc ≠ []) :
    process env (n + 1) f (.list l) ph ser anc = .ok w ↔
      ∃ rs, w = .list rs ∧ rs.length = l.length ∧
        (∀ b m, Gives args c!"min_length" b → LengthGiven b m → m ≤ l.length) ∧
        (∀ b m, Gives args c!"max_length" b → LengthGiven b m → l.length ≤ m) ∧
        (∀ i x, l[i]? = some x → ∃ r, rs[i]? = some r ∧
          process env n g x ph ser (anc ++ [c!"[" ++ natStr i ++ c!"]"]) = .ok r) ∧
        (Sets args c!"unique" → (∀ r ∈ rs, hashable r = true) ∧ rs.Pairwise fun a b => pyEq a b = false) := by
  rw [initField_sequence, hi] at h
  obtain ⟨c, hc, h⟩ := except_bind_eq_ok.1 h
  obtain ⟨_, hitem, h⟩ := except_bind_eq_ok.1 h
  cases hitem
  obtain ⟨a, ha1, h⟩ := except_bind_eq_ok.1 h
  obtain ⟨b, hb1, h⟩ := except_bind_eq_ok.1 h
  obtain ⟨mn, hmn, h⟩ := except_bind_eq_ok.1 h
  obtain ⟨mx, hmx, h⟩ := except_bind_eq_ok.1 h
  cases h
  rw [C09_sequence_accepts_iff env n c item g mn mx _ (initCommon_plain hc).1 hg l w ph ser anc ha,
    lenArg_reader.iff ha1 hmn (fun m => m ≤ _), lenArg_reader.iff hb1 hmx (fun m => _ ≤ m)]
  simp only [flag_sets]

theorem words_mem {s t : Str} : t ∈ splitOn ' ' s ↔ ∃ ws, s = joinStr [' '] ws ∧ (∀ t ∈ ws, ' ' ∉ t) ∧ t ∈ ws := by
  constructor
  · intro h
    exact ⟨splitOn ' ' s, (join_splitOn ' ' s).symm, fun t ht => splitOn_parts ht, h⟩
  · rintro ⟨ws, rfl, h1, h2⟩
    rw [splitOn_join (List.ne_nil_of_mem h2) h1]
    exact h2

/-- The words of a text. -/
theorem oneOf_text {args : Args} {k s : Str} {v : Val} (hg : Gives args k (.str s)) :
    (∃ m ∈ enumOfText s, pyEq v m = true) ↔ OneOf args k v := by
  constructor
  · rintro ⟨m, hm, he⟩
    simp only [enumOfText, List.mem_map] at hm
    obtain ⟨t, ht, rfl⟩ := hm
    obtain ⟨ws, h1, h2, h3⟩ := words_mem.1 ht
    exact .inr ⟨s, ws, hg, h1, h2, t, h3, he⟩
  · rintro (⟨l, m, hl | hl, -⟩ | ⟨s', ws, hs, h1, h2, t, h3, he⟩)
    · cases hg.unique hl
    · cases hg.unique hl
    · cases hg.unique hs
      exact ⟨_, List.mem_map.2 ⟨t, words_mem.2 ⟨ws, h1, h2, h3⟩, rfl⟩, he⟩

theorem oneOf_list {args : Args} {k : Str} {l : List Val} {v : Val} (hg : Gives args k (.list l)) :
    (∃ m ∈ l, pyEq v m = true) ↔ OneOf args k v := by
  constructor
  · rintro ⟨m, hm, he⟩; exact .inl ⟨_, m, .inl hg, hm, he⟩
  · rintro (⟨l, m, hl | hl, hm, he⟩ | ⟨s', ws, hs, -⟩)
    · cases hg.unique hl; exact ⟨m, hm, he⟩
    · cases hg.unique hl
    · cases hg.unique hs

theorem oneOf_tuple {args : Args} {k : Str} {l : List Val} {v : Val} (hg : Gives args k (.tuple l)) :
    (∃ m ∈ l, pyEq v m = true) ↔ OneOf args k v := by
  constructor
  · rintro ⟨m, hm, he⟩; exact .inl ⟨_, m, .inr hg, hm, he⟩
  · rintro (⟨l, m, hl | hl, hm, he⟩ | ⟨s', ws, hs, -⟩)
    · cases hg.unique hl
    · cases hg.unique hl; exact ⟨m, hm, he⟩
    · cases hg.unique hs

theorem oneOf_absent {args : Args} {k : Str} {v : Val} (hg : ∀ b, ¬ Gives args k b) : ¬ OneOf args k v := by
  rintro (⟨l, m, hl | hl, -⟩ | ⟨s', ws, hs, -⟩)
  · exact hg _ hl
  · exact hg _ hl
  · exact hg _ hs

theorem enumArg_oneOf {args : Args} {k : Str} {a v : Val} {l : List Val} (ha : args.get k = .ok a) (h : enumArg a = .ok l) :
    (∃ m ∈ l, pyEq v m = true) ↔ OneOf args k v := by
  rcases get_given ha with ⟨rfl, -⟩ | hg
  · cases h
  · unfold enumArg at h
    split at h
    · cases h; exact oneOf_text hg
    · split at h <;> cases h; exact oneOf_list hg
    · split at h <;> cases h; exact oneOf_tuple hg
    · cases h
    · cases h

theorem ignoredArg_oneOf {args : Args} {k : Str} {a v : Val} {l : List Val} (ha : args.get k = .ok a) (h : ignoredArg a = .ok l) :
    (∃ m ∈ l, pyEq v m = true) ↔ OneOf args k v := by
  rcases get_given ha with ⟨rfl, hno⟩ | hg
  · cases h
    exact ⟨fun ⟨m, hm, _⟩ => absurd hm List.not_mem_nil, fun h => absurd h (oneOf_absent hno)⟩
  · unfold ignoredArg at h
    split at h
    · cases h; exact oneOf_text hg
    · split at h <;> cases h; exact oneOf_list hg
    · exact absurd rfl hg.2
    · cases h

theorem keysArg_oneOf {args : Args} {k : Str} {a v : Val} {l : List Val} (ha : args.get k = .ok a) (h : keysArg a = .ok l) :
    (∃ m ∈ l, pyEq v m = true) ↔ OneOf args k v := by
  rcases get_given ha with ⟨rfl, hno⟩ | hg
  · cases h
    exact ⟨fun ⟨m, hm, _⟩ => absurd hm List.not_mem_nil, fun h => absurd h (oneOf_absent hno)⟩
  · unfold keysArg at h
    split at h
    · cases h; exact oneOf_text hg
    · cases h; exact oneOf_list hg
    · cases h; exact oneOf_tuple hg
    · exact absurd rfl hg.2
    · cases h

/-- C70. An Enumeration accepts exactly the declared members — listed, or the words of a text — that are not declared
to be ignored. -/
theorem C70_enumeration (h : initField env c!"enumeration" args = .ok f) (hv : v ≠ .none)
    (hign : ¬ OneOf args c!"ignored_values" v) (ph : Phase) (ser : Bool) (ha : anc ≠ []) :
    process env (n + 1) f v ph ser anc = .ok w ↔
      w = v ∧ MeetsConstant args v ∧ OneOf args c!"enumeration" v := by
  rw [initField_enumeration] at h
  obtain ⟨c, hc, h⟩ := except_bind_eq_ok.1 h
  obtain ⟨a, ha1, h⟩ := except_bind_eq_ok.1 h
  obtain ⟨b, hb1, h⟩ := except_bind_eq_ok.1 h
  obtain ⟨mn, hmn, h⟩ := except_bind_eq_ok.1 h
  obtain ⟨mx, hmx, h⟩ := except_bind_eq_ok.1 h
  cases h
  have hno : ∀ x ∈ mx, pyEq v x = false := by
    intro x hx
    cases he : pyEq v x with
    | false => rfl
    | true => exact absurd ((ignoredArg_oneOf hb1 hmx).1 ⟨x, hx, he⟩) hign
  rw [C24_iff env n c mn mx (initCommon_plain hc).1 v w hv hno ph ser anc ha, initCommon_const hc, enumArg_oneOf ha1 hmn]

/-- C70. What is declared to be ignored — listed, or as the words of a text — counts as None: it is accepted, as None, unless
the field is declared `nonnull` or `nonempty`. -/
theorem C70_enumeration_ignored (h : initField env c!"enumeration" args = .ok f)
    (hign : OneOf args c!"ignored_values" v) (ph : Phase) (ser : Bool) :
    process env (n + 1) f v ph ser anc = .ok w ↔ w = .none ∧ ¬ Sets args c!"nonnull" ∧ ¬ Sets args c!"nonempty" := by
  rw [initField_enumeration] at h
  obtain ⟨c, hc, h⟩ := except_bind_eq_ok.1 h
  obtain ⟨a, ha1, h⟩ := except_bind_eq_ok.1 h
  obtain ⟨b, hb1, h⟩ := except_bind_eq_ok.1 h
  obtain ⟨mn, hmn, h⟩ := except_bind_eq_ok.1 h
  obtain ⟨mx, hmx, h⟩ := except_bind_eq_ok.1 h
  cases h
  have hin : pyIn v mx = true := (pyIn_iff v mx).2 ((ignoredArg_oneOf hb1 hmx).2 hign)
  have hnn : c.nonnull = true ↔ Sets args c!"nonempty" ∨ Sets args c!"nonnull" := by
    obtain ⟨-, -, -, -, h5, -⟩ := initCommon_at hc
    rw [h5, Bool.or_eq_true, flag_sets, flag_sets]
  have hview : nullView (.leaf c (.enumeration mn mx)) v = .none := by simp [nullView, hin]
  show processLeaf env c (.enumeration mn mx) v ph ser anc = .ok w ↔ _
  rw [processLeaf_eq]
  unfold isNull
  rw [hview]
  simp only [Field.common?, Val.isNone, if_true]
  by_cases hb : c.nonnull = true
  · rw [hb]
    refine ⟨fun h => (by cases h), fun ⟨_, h1, h2⟩ => ?_⟩
    rcases hnn.1 hb with h | h <;> contradiction
  · rw [if_neg hb]
    simp only [except_bind_ok, if_true, Except.ok.injEq]
    refine ⟨fun h => ⟨h.symm, fun h => hb (hnn.2 (.inr h)), fun h => hb (hnn.2 (.inl h))⟩, fun h => h.1.symm⟩

/-- C70. Whatever the type, None passes exactly if the field is declared neither `nonnull` nor `nonempty`; otherwise it
is refused as null. -/
theorem C70_null {type : Str} (ht : type ∈ fieldTypes) (h : initField env type args = .ok f) (ph : Phase) (ser : Bool) (ha : anc ≠ []) :
    (¬ Sets args c!"nonnull" → ¬ Sets args c!"nonempty" → process env (n + 1) f .none ph ser anc = .ok .none) ∧
    (Sets args c!"nonnull" ∨ Sets args c!"nonempty" →
      Raises (process env (n + 1) f .none ph ser anc) .validation anc .none c!"nonnull") := by
  obtain ⟨known, args', c, hc, hi, hl, -⟩ := initField_inits ht h
  obtain ⟨-, -, -, -, h5, -⟩ := initCommon_at hi
  have hs : ∀ k, k ≠ c!"errors" → (args'.flag k false = true ↔ Sets args k) := by
    intro k hk; rw [flag_sets]; unfold Sets; rw [hl k hk]
  have hnn : c.nonnull = true ↔ Sets args c!"nonempty" ∨ Sets args c!"nonnull" := by
    rw [h5, Bool.or_eq_true, hs _ (by decide), hs _ (by decide)]
  constructor
  · intro h1 h2
    refine C04_null_accepted env n f c hc ?_ ph ser anc
    cases hb : c.nonnull with
    | false => rfl
    | true => exact absurd (hnn.1 hb) (by rintro (h | h) <;> contradiction)
  · intro h1
    refine C04_null_rejected env n f c hc ?_ (hnn.2 h1.symm) ph ser anc ha
    unfold plainErrors
    rw [hc]
    simp only [(initCommon_plain hi).2.1, List.not_mem_nil, false_implies, implies_true]

/-- C70. Whatever the type, the field has the declared name, default and constant, and it is required exactly if it is
declared `required` or `nonempty`. -/
theorem C70_common {type : Str} (ht : type ∈ fieldTypes) (h : initField env type args = .ok f) :
    ∃ c, f.common? = some c ∧
      (∀ s, c.name = some s ↔ Gives args c!"name" (.str s)) ∧
      (∀ d, d ≠ .none → (c.default = d ↔ Gives args c!"default" d)) ∧
      (∀ d, d ≠ .none → (c.constant = d ↔ Gives args c!"constant" d)) ∧
      (c.required = true ↔ Sets args c!"required" ∨ Sets args c!"nonempty") ∧
      (c.ignoreNull = true ↔ Sets args c!"ignore_null") := by
  obtain ⟨known, args', c, hc, hi, hl, -⟩ := initField_inits ht h
  obtain ⟨⟨nm, h1, h1'⟩, -, -, -, -, h6, h7, -⟩ := initCommon_at hi
  obtain ⟨-, -, h2, h3⟩ := initCommon_plain hi
  have hs : ∀ k, k ≠ c!"errors" → (args'.flag k false = true ↔ Sets args k) := by
    intro k hk; rw [flag_sets]; unfold Sets; rw [hl k hk]
  have hg : ∀ k, k ≠ c!"errors" → ∀ {x}, args'.get k = .ok x → ∀ d, d ≠ .none → (x = d ↔ Gives args k d) := by
    intro k hk x hx d hd
    have e : Gives args k d ↔ Gives args' k d := by unfold Gives; rw [hl k hk]
    rw [e]
    rcases get_given hx with ⟨rfl, h⟩ | h
    · exact ⟨fun h' => absurd h'.symm hd, fun h' => absurd h' (h d)⟩
    · exact ⟨fun h' => h' ▸ h, fun h' => (h.unique h').symm⟩
  refine ⟨c, hc, fun s => ?_, hg _ (by decide) h3, hg _ (by decide) h2, ?_, ?_⟩
  · rw [← hg _ (by decide) h1 (.str s) (by simp)]
    rcases h1' with ⟨rfl, h⟩ | ⟨s', rfl, h⟩
    · rw [h]; simp
    · rw [h]; simp
  · rw [h6, Bool.or_eq_true, hs _ (by decide), hs _ (by decide), or_comm]
  · rw [h7, hs _ (by decide)]

end

/-! ### which declarations are possible -/

theorem args_mem {args : Args} {k : Str} {a : Arg} (h : args.lookup k = some a) : (k, a) ∈ args := by
  induction args with
  | nil => cases h
  | cons e r ih =>
    obtain ⟨k', a'⟩ := e
    rw [List.lookup_cons] at h
    split at h
    · rename_i hk
      cases h
      rw [eq_of_beq hk]
      exact List.mem_cons_self ..
    · exact List.mem_cons_of_mem _ (ih h)

theorem Ordinary.get {args : Args} (h : Ordinary args) (k : Str) : ∃ v, args.get k = .ok v := by
  unfold Args.get
  cases hl : args.lookup k with
  | none => exact ⟨_, rfl⟩
  | some a =>
    obtain ⟨v, hv⟩ := h.vals _ (args_mem hl)
    dsimp only at hv
    subst hv
    exact ⟨v, rfl⟩

theorem Ordinary.absent {args : Args} (h : Ordinary args) {k : Str} (hk : ∀ v, ¬ Gives args k v) : args.get k = .ok .none := by
  obtain ⟨v, hv⟩ := h.get k
  rcases get_given hv with ⟨rfl, -⟩ | hg
  · exact hv
  · exact absurd hg (hk v)

theorem Ordinary.common {args : Args} (h : Ordinary args) (known : List Str) : ∃ c, initCommon known args = .ok c := by
  obtain ⟨nm, hn⟩ := h.get c!"name"
  obtain ⟨a1, h1⟩ := h.get c!"description"
  obtain ⟨a2, h2⟩ := h.get c!"default"
  obtain ⟨a3, h3⟩ := h.get c!"constant"
  obtain ⟨a4, h4⟩ := h.get c!"title"
  obtain ⟨a5, h5⟩ := h.get c!"notes"
  obtain ⟨r, hr⟩ := initAspects_ok (known := known ++ baseKeys) h.keys
  have he : args.flag c!"errors" false = false := by
    cases hf : args.flag c!"errors" false with
    | false => rfl
    | true => exact absurd (flag_sets.1 hf) h.errors
  unfold initCommon
  simp only [hn, except_bind_ok, h1, h2, h3, h4, h5, h.absent h.inst, h.absent h.ext, h.absent h.pre, h.absent h.aspects,
    he, hr, Val.isNone]
  rcases get_given hn with ⟨rfl, -⟩ | hg
  · exact ⟨_, rfl⟩
  · obtain ⟨s, rfl⟩ := h.name _ hg
    exact ⟨_, rfl⟩

/-- A reader that raises TypeError for everything else. -/
structure StrictReader {α : Type} (parse : Val → Except Exn (Option α)) (R : Val → α → Prop) (Q : Val → Prop) : Prop extends Reader parse R where
  bad : ∀ v, v ≠ .none → Q v → (∀ m, ¬ R v m) → parse v = .error (.py .typeError)
  good : ∀ v m, R v m → ∃ o, parse v = .ok o

/-- Reading one argument. -/
theorem StrictReader.read {α : Type} {parse : Val → Except Exn (Option α)} {R : Val → α → Prop} {Q : Val → Prop}
    (h : StrictReader parse R Q) {args : Args} {k : Str} {v : Val} (hv : args.get k = .ok v) :
    ((∀ b, Gives args k b → ∃ m, R b m) → ∃ o, parse v = .ok o) ∧
    (∀ b, Gives args k b → Q b → (∀ m, ¬ R b m) → parse v = .error (.py .typeError)) := by
  rcases get_given hv with ⟨rfl, h2⟩ | hg
  · exact ⟨fun _ => ⟨_, h.none⟩, fun b hb => absurd hb (h2 b)⟩
  · refine ⟨fun h' => ?_, fun b hb hq hn => ?_⟩
    · obtain ⟨m, hm⟩ := h' v hg
      exact h.good v m hm
    · cases hg.unique hb
      exact h.bad _ hb.2 hq hn

theorem intArg_strict : StrictReader intArg IntGiven (fun _ => True) := by
  refine ⟨intArg_reader, fun v hv _ h => ?_, ?_⟩
  · cases v with
    | none => exact absurd rfl hv
    | int i => exact absurd (.inl rfl) (h i)
    | bool b => cases b
                · exact absurd (.inr (.inr ⟨rfl, rfl⟩)) (h 0)
                · exact absurd (.inr (.inl ⟨rfl, rfl⟩)) (h 1)
    | _ => rfl
  · rintro v m (rfl | ⟨rfl, rfl⟩ | ⟨rfl, rfl⟩) <;> exact ⟨_, rfl⟩

theorem lenArg_strict : StrictReader lenArg LengthGiven (fun _ => True) := by
  refine ⟨lenArg_reader, fun v hv _ h => ?_, ?_⟩
  · cases v with
    | none => exact absurd rfl hv
    | int i =>
      unfold lenArg
      simp only
      split
      · rename_i hi
        exact absurd (.inl (by rw [Int.toNat_of_nonneg hi])) (h i.toNat)
      · rfl
    | bool b => cases b
                · exact absurd (.inr (.inr ⟨rfl, rfl⟩)) (h 0)
                · exact absurd (.inr (.inl ⟨rfl, rfl⟩)) (h 1)
    | _ => rfl
  · rintro v m (rfl | ⟨rfl, _⟩ | ⟨rfl, _⟩)
    · exact ⟨some m, by unfold lenArg; simp⟩
    · exact ⟨_, rfl⟩
    · exact ⟨_, rfl⟩

theorem floatArg_strict : StrictReader floatArg (fun v x => v = .float x) (fun _ => True) := by
  refine ⟨floatArg_reader, fun v hv _ h => ?_, ?_⟩
  · cases v with
    | none => exact absurd rfl hv
    | float x => exact absurd rfl (h x)
    | _ => rfl
  · rintro v m rfl; exact ⟨_, rfl⟩

theorem decArg_strict (env : Env) : StrictReader (decArg env) (DecGiven env) (fun _ => True) := by
  refine ⟨decArg_reader env, fun v hv _ h => ?_, ?_⟩
  · cases v with
    | none => exact absurd rfl hv
    | decimal x => exact absurd (.inl rfl) (h x)
    | str s =>
      unfold decArg
      cases hp : parseDec env.u s with
      | none => simp only [hp]
      | some d => exact absurd (.inr ⟨s, rfl, (parseDec_iff _ _ _).1 hp⟩) (h d)
    | _ => rfl
  · rintro v m (rfl | ⟨s, rfl, h⟩)
    · exact ⟨_, rfl⟩
    · exact ⟨some m, by unfold decArg; simp only [(parseDec_iff _ _ _).2 h]⟩

theorem timeArg_strict (env : Env) : StrictReader (timeArg env) (TimeGiven env) (fun _ => True) := by
  refine ⟨timeArg_reader env, fun v hv _ h => ?_, ?_⟩
  · cases v with
    | none => exact absurd rfl hv
    | time x => exact absurd (.inl rfl) (h x)
    | str s =>
      unfold timeArg
      cases hp : parseTime env.u s with
      | none => simp only [hp]
      | some d => exact absurd (.inr ⟨s, rfl, (parseTime_iff _ _ _).1 hp⟩) (h d)
    | _ => rfl
  · rintro v m (rfl | ⟨s, rfl, h⟩)
    · exact ⟨_, rfl⟩
    · exact ⟨some m, by unfold timeArg; simp only [(parseTime_iff _ _ _).2 h]⟩

theorem dateArg_strict (env : Env) : StrictReader (dateArg env) (DateGiven env) (fun v => ∀ d, v ≠ .datetime d) := by
  refine ⟨dateArg_reader env, fun v hv hq h => ?_, ?_⟩
  · cases v with
    | none => exact absurd rfl hv
    | date x => exact absurd (.inl rfl) (h x)
    | datetime x => exact absurd rfl (hq x)
    | str s =>
      unfold dateArg
      cases hp : parseDate env.u s with
      | none => simp only [hp]
      | some d => exact absurd (.inr ⟨s, rfl, (parseDate_iff _ _ _).1 hp⟩) (h d)
    | _ => rfl
  · rintro v m (rfl | ⟨s, rfl, h⟩)
    · exact ⟨_, rfl⟩
    · exact ⟨some m, by unfold dateArg; simp only [(parseDate_iff _ _ _).2 h]⟩

/-- Both bounds are read, the one or the other first. -/
theorem declare_pair {α : Type} {parse : Val → Except Exn (Option α)} {R : Val → α → Prop} {Q : Val → Prop}
    (hr : StrictReader parse R Q) {args : Args} (ho : Ordinary args) (k1 k2 : Str) (known : List Str)
    (mk : Common → Option α → Option α → Field) (hq : ∀ k ∈ [k1, k2], ∀ b, Gives args k b → Q b) (F : Except Exn Field)
    (hF : F = (do
      let c ← initCommon known args
      let a ← args.get k1
      let b ← args.get k2
      let a ← parse a
      let b ← parse b
      return mk c a b) ∨ F = (do
      let c ← initCommon known args
      let a ← args.get k1
      let b ← args.get k2
      let b ← parse b
      let a ← parse a
      return mk c a b)) :
    ((∃ f, F = .ok f) ↔ ∀ k ∈ [k1, k2], ∀ b, Gives args k b → ∃ m, R b m) ∧
    ((∃ k ∈ [k1, k2], ∃ b, Gives args k b ∧ ∀ m, ¬ R b m) → F = .error (.py .typeError)) := by
  obtain ⟨c, hc⟩ := ho.common known
  obtain ⟨a, ha⟩ := ho.get k1
  obtain ⟨b, hb⟩ := ho.get k2
  replace hF : F = (parse a >>= fun a => parse b >>= fun b => .ok (mk c a b)) ∨
      F = (parse b >>= fun b => parse a >>= fun a => .ok (mk c a b)) := by
    rcases hF with h | h
    · exact .inl (by rw [h, hc, ha, hb]; rfl)
    · exact .inr (by rw [h, hc, ha, hb]; rfl)
  obtain ⟨g1, b1⟩ := hr.read ha
  obtain ⟨g2, b2⟩ := hr.read hb
  have bad : (∃ k ∈ [k1, k2], ∃ b, Gives args k b ∧ ∀ m, ¬ R b m) → F = .error (.py .typeError) := by
    rintro ⟨k, hk, x, hx, hn⟩
    have hqx := hq k hk x hx
    -- the other reading either succeeds or raises TypeError as well
    have other : ∀ k ∈ [k1, k2], ∀ {y}, args.get k = .ok y → (∃ o, parse y = .ok o) ∨ parse y = .error (.py .typeError) := by
      intro k hk y hy
      rcases get_given hy with ⟨rfl, -⟩ | hg
      · exact .inl ⟨_, hr.none⟩
      · by_cases hm : ∃ m, R y m
        · obtain ⟨m, hm⟩ := hm; exact .inl (hr.good y m hm)
        · exact .inr (hr.bad y hg.2 (hq k hk y hg) fun m h => hm ⟨m, h⟩)
    simp only [List.mem_cons, List.not_mem_nil, or_false] at hk
    rcases hk with rfl | rfl
    · have e := b1 x hx hqx hn
      rcases hF with h | h
      · rw [h, e]; rfl
      · rcases other k2 (by simp) hb with ⟨o, ho⟩ | ho
        · rw [h, ho, e]; rfl
        · rw [h, ho]; rfl
    · have e := b2 x hx hqx hn
      rcases hF with h | h
      · rcases other k1 (by simp) ha with ⟨o, ho⟩ | ho
        · rw [h, ho, e]; rfl
        · rw [h, ho]; rfl
      · rw [h, e]; rfl
  refine ⟨⟨?_, ?_⟩, bad⟩
  · rintro ⟨f, hf⟩ k hk x hx
    by_cases hm : ∃ m, R x m
    · exact hm
    · rw [bad ⟨k, hk, x, hx, fun m h => hm ⟨m, h⟩⟩] at hf; cases hf
  · intro h
    obtain ⟨o1, h1⟩ := g1 (h k1 (by simp))
    obtain ⟨o2, h2⟩ := g2 (h k2 (by simp))
    rcases hF with h | h
    · exact ⟨_, by rw [h, h1, h2]; rfl⟩
    · exact ⟨_, by rw [h, h2, h1]; rfl⟩

/-- Both lengths are read. -/
theorem lengths_declared {args : Args} {a b : Val} (ha : args.get c!"min_length" = .ok a) (hb : args.get c!"max_length" = .ok b)
    (mk : Option Nat → Option Nat → Field) {F : Except Exn Field}
    (hF : F = (lenArg (minArg (args.flag c!"nonempty" false) a) >>= fun a => lenArg b >>= fun b => .ok (mk a b))) :
    ((∃ f, F = .ok f) ↔ ∀ k ∈ [c!"min_length", c!"max_length"], ∀ b, Gives args k b → ∃ m, LengthGiven b m) ∧
    ((∃ k ∈ [c!"min_length", c!"max_length"], ∃ b, Gives args k b ∧ ∀ m, ¬ LengthGiven b m) → F = .error (.py .typeError)) := by
  have hmin : ((∀ b, Gives args c!"min_length" b → ∃ m, LengthGiven b m) →
        ∃ o, lenArg (minArg (args.flag c!"nonempty" false) a) = .ok o) ∧
      (∀ b, Gives args c!"min_length" b → (∀ m, ¬ LengthGiven b m) →
        lenArg (minArg (args.flag c!"nonempty" false) a) = .error (.py .typeError)) := by
    rcases get_given ha with ⟨rfl, h2⟩ | hg
    · refine ⟨fun _ => ?_, fun b hb => absurd hb (h2 b)⟩
      cases args.flag c!"nonempty" false <;> exact ⟨_, rfl⟩
    · have : minArg (args.flag c!"nonempty" false) a = a := by
        have : a.isNone = false := by
          cases h : a.isNone
          · rfl
          · exact absurd ((isNone_iff a).1 h) hg.2
        simp [minArg, this]
      rw [this]
      exact ⟨(lenArg_strict.read ha).1, fun b hb => (lenArg_strict.read ha).2 b hb trivial⟩
  have bad : (∃ k ∈ [c!"min_length", c!"max_length"], ∃ b, Gives args k b ∧ ∀ m, ¬ LengthGiven b m) → F = .error (.py .typeError) := by
    rintro ⟨k, hk, x, hx, hn⟩
    simp only [List.mem_cons, List.not_mem_nil, or_false] at hk
    rcases hk with rfl | rfl
    · rw [hF, hmin.2 x hx hn]; rfl
    · by_cases h : ∀ b, Gives args c!"min_length" b → ∃ m, LengthGiven b m
      · obtain ⟨o, ho⟩ := hmin.1 h
        rw [hF, ho, (lenArg_strict.read hb).2 x hx trivial hn]; rfl
      · rw [Classical.not_forall] at h
        obtain ⟨y, hy⟩ := h
        rw [Classical.not_imp] at hy
        rw [hF, hmin.2 y hy.1 fun m hm => hy.2 ⟨m, hm⟩]; rfl
  refine ⟨⟨?_, ?_⟩, bad⟩
  · rintro ⟨f, hf⟩ k hk x hx
    by_cases hm : ∃ m, LengthGiven x m
    · exact hm
    · rw [bad ⟨k, hk, x, hx, fun m h => hm ⟨m, h⟩⟩] at hf; cases hf
  · intro h
    obtain ⟨o1, h1⟩ := hmin.1 (h _ (by simp))
    obtain ⟨o2, h2⟩ := (lenArg_strict.read hb).1 (h _ (by simp))
    exact ⟨_, by rw [hF, h1, h2]; rfl⟩

section
variable {env : Env} {args : Args}

/-- C70. An Integer can be declared exactly if the bounds are ints; otherwise TypeError is raised. -/
theorem C70_integer_declared (ho : Ordinary args) :
    ((∃ f, initField env c!"integer" args = .ok f) ↔
      ∀ k ∈ [c!"minimum", c!"maximum"], ∀ b, Gives args k b → ∃ m, IntGiven b m) ∧
    ((∃ k ∈ [c!"minimum", c!"maximum"], ∃ b, Gives args k b ∧ ∀ m, ¬ IntGiven b m) →
      initField env c!"integer" args = .error (.py .typeError)) :=
  declare_pair intArg_strict ho _ _ _ (fun c a b => .leaf c (.integer a b)) (fun _ _ _ _ => trivial) _ (.inl (initField_integer env args))

/-- C70. A Float can be declared exactly if the bounds are floats (an int is none); otherwise TypeError is raised. -/
theorem C70_float_declared (ho : Ordinary args) :
    ((∃ f, initField env c!"float" args = .ok f) ↔
      ∀ k ∈ [c!"minimum", c!"maximum"], ∀ b, Gives args k b → ∃ m, b = .float m) ∧
    ((∃ k ∈ [c!"minimum", c!"maximum"], ∃ b, Gives args k b ∧ ∀ m, b ≠ .float m) →
      initField env c!"float" args = .error (.py .typeError)) :=
  declare_pair floatArg_strict ho _ _ _ (fun c a b => .leaf c (.float a b)) (fun _ _ _ _ => trivial) _ (.inl (initField_float env args))

/-- C70. A Decimal can be declared exactly if the bounds are decimals or their texts; otherwise TypeError is raised. -/
theorem C70_decimal_declared (ho : Ordinary args) :
    ((∃ f, initField env c!"decimal" args = .ok f) ↔
      ∀ k ∈ [c!"minimum", c!"maximum"], ∀ b, Gives args k b → ∃ m, DecGiven env b m) ∧
    ((∃ k ∈ [c!"minimum", c!"maximum"], ∃ b, Gives args k b ∧ ∀ m, ¬ DecGiven env b m) →
      initField env c!"decimal" args = .error (.py .typeError)) :=
  declare_pair (decArg_strict env) ho _ _ _ (fun c a b => .leaf c (.decimal a b)) (fun _ _ _ _ => trivial) _
    (.inl (initField_decimal env args))

/-- C70. A Time can be declared exactly if the bounds are times or their texts; otherwise TypeError is raised. -/
theorem C70_time_declared (ho : Ordinary args) :
    ((∃ f, initField env c!"time" args = .ok f) ↔
      ∀ k ∈ [c!"minimum", c!"maximum"], ∀ b, Gives args k b → ∃ m, TimeGiven env b m) ∧
    ((∃ k ∈ [c!"minimum", c!"maximum"], ∃ b, Gives args k b ∧ ∀ m, ¬ TimeGiven env b m) →
      initField env c!"time" args = .error (.py .typeError)) :=
  declare_pair (timeArg_strict env) ho _ _ _ (fun c a b => .leaf c (.time a b)) (fun _ _ _ _ => trivial) _
    (.inr (initField_time env args))

/-- C70. A Date can be declared exactly if the bounds are dates or their texts; otherwise TypeError is raised.
(Datetimes as bounds are not represented.) -/
theorem C70_date_declared (ho : Ordinary args) (hd : ∀ k d, ¬ Gives args k (.datetime d)) :
    ((∃ f, initField env c!"date" args = .ok f) ↔
      ∀ k ∈ [c!"minimum", c!"maximum"], ∀ b, Gives args k b → ∃ m, DateGiven env b m) ∧
    ((∃ k ∈ [c!"minimum", c!"maximum"], ∃ b, Gives args k b ∧ ∀ m, ¬ DateGiven env b m) →
      initField env c!"date" args = .error (.py .typeError)) :=
  declare_pair (dateArg_strict env) ho _ _ _ (fun c a b => .leaf c (.date a b)) (fun _ _ _ hb d h => hd _ d (h ▸ hb)) _
    (.inr (initField_date env args))

/-- C70. A Binary can be declared exactly if the lengths are ints that are not negative; otherwise TypeError is raised. -/
theorem C70_binary_declared (ho : Ordinary args) :
    ((∃ f, initField env c!"binary" args = .ok f) ↔
      ∀ k ∈ [c!"min_length", c!"max_length"], ∀ b, Gives args k b → ∃ m, LengthGiven b m) ∧
    ((∃ k ∈ [c!"min_length", c!"max_length"], ∃ b, Gives args k b ∧ ∀ m, ¬ LengthGiven b m) →
      initField env c!"binary" args = .error (.py .typeError)) := by
  obtain ⟨c, hc⟩ := ho.common [c!"min_length", c!"max_length"]
  obtain ⟨a, ha⟩ := ho.get c!"min_length"
  obtain ⟨b, hb⟩ := ho.get c!"max_length"
  have e : initField env c!"binary" args = (lenArg (minArg (args.flag c!"nonempty" false) a) >>= fun a => lenArg b >>= fun b =>
      .ok (.leaf c (.binary a b))) := by rw [initField_binary, hc, ha, hb]; rfl
  exact lengths_declared ha hb (fun a b => .leaf c (.binary a b)) e

/-- C70. A Text without pattern can be declared exactly if the lengths are ints that are not negative. -/
theorem C70_text_declared (ho : Ordinary args) (hp : ∀ b, ¬ Gives args c!"pattern" b) :
    ((∃ f, initField env c!"text" args = .ok f) ↔
      ∀ k ∈ [c!"min_length", c!"max_length"], ∀ b, Gives args k b → ∃ m, LengthGiven b m) ∧
    ((∃ k ∈ [c!"min_length", c!"max_length"], ∃ b, Gives args k b ∧ ∀ m, ¬ LengthGiven b m) →
      initField env c!"text" args = .error (.py .typeError)) := by
  obtain ⟨c, hc⟩ := ho.common [c!"pattern", c!"min_length", c!"max_length", c!"strip"]
  obtain ⟨a, ha⟩ := ho.get c!"min_length"
  obtain ⟨b, hb⟩ := ho.get c!"max_length"
  exact lengths_declared ha hb (fun a b => .leaf c (.text none a b (args.flag c!"strip" true)))
    (by rw [initField_text, hc, ha, hb, ho.absent hp]; rfl)

/-- C70. An Enumeration can be declared exactly if its members are values that need no conversion and nothing else is to
be ignored; otherwise TypeError is raised. -/
theorem C70_enumeration_declared (ho : Ordinary args) (l : List Val) (hl : Gives args c!"enumeration" (.list l))
    (hi : ∀ b, ¬ Gives args c!"ignored_values" b) :
    ((∃ f, initField env c!"enumeration" args = .ok f) ↔ ∀ x ∈ l, Native x) ∧
    ((∃ x ∈ l, ¬ Native x) → initField env c!"enumeration" args = .error (.py .typeError)) := by
  obtain ⟨c, hc⟩ := ho.common [c!"enumeration", c!"ignored_values"]
  have hg : args.get c!"enumeration" = .ok (.list l) := by unfold Args.get; rw [hl.1]
  have e : initField env c!"enumeration" args = (enumArg (.list l) >>= fun a => .ok (.leaf c (.enumeration a []))) := by
    rw [initField_enumeration, hc, hg, ho.absent hi]; rfl
  have hn : ∀ x, nativeType x = true ↔ Native x := by
    intro x; unfold Native; cases x <;> simp [nativeType]
  have ha : l.all nativeType = true ↔ ∀ x ∈ l, Native x := by
    rw [List.all_eq_true]; simp only [hn]
  rw [e]
  simp only [enumArg]
  by_cases h : ∀ x ∈ l, Native x
  · rw [if_pos (ha.2 h)]
    exact ⟨⟨fun _ => h, fun _ => ⟨_, rfl⟩⟩, fun ⟨x, hx, hx'⟩ => absurd (h x hx) hx'⟩
  · rw [if_neg fun h' => h (ha.1 h')]
    exact ⟨⟨fun ⟨_, h'⟩ => (by cases h'), fun h' => absurd h' h⟩, fun _ => rfl⟩

/-- C70. An Email declared both `multiple` and `extended` is a ValueError. -/
theorem C70_email_declared (h1 : Sets args c!"multiple") (h2 : Sets args c!"extended") :
    initField env c!"email" args = .error (.py .valueError) := by
  rw [initField_email]
  dsimp only
  rw [flag_sets.2 h1, flag_sets.2 h2]; rfl

/-- C70, deviation. Nothing compares the bounds: declared with a minimum above the maximum, a field accepts no value
except None. -/
theorem C70_empty_range (i j : Int) (hij : j < i) : ∃ f,
    initField env c!"integer" [(c!"minimum", .val (.int i)), (c!"maximum", .val (.int j))] = .ok f ∧
    ∀ n v w ph anc, v ≠ .none → anc ≠ [] → process env (n + 1) f v ph false anc ≠ .ok w := by
  refine ⟨_, rfl, fun n v w ph anc hv ha h => ?_⟩
  have := (C70_integer (args := [(c!"minimum", .val (.int i)), (c!"maximum", .val (.int j))]) (env := env) rfl hv ph ha).1 h
  obtain ⟨x, -, -, -, h1, h2⟩ := this
  have h1 := h1 (.int i) i ⟨rfl, by simp⟩ (.inl rfl)
  have h2 := h2 (.int j) j ⟨rfl, by simp⟩ (.inl rfl)
  omega

/-- C70, deviation. `nonempty` is overruled by a `min_length` of 0, and it has no such meaning for sequences and maps. -/
theorem C70_nonempty_empty :
    (∃ f, initField env c!"text" [(c!"nonempty", .val (.bool true)), (c!"min_length", .val (.int 0))] = .ok f ∧
      process env 1 f (.str []) .inbound false [c!"t"] = .ok (.str [])) ∧
    (∃ f, initField env c!"sequence" [(c!"item", .field (.leaf {} .any)), (c!"nonempty", .val (.bool true))] = .ok f ∧
      process env 1 f (.list []) .inbound false [c!"s"] = .ok (.list [])) ∧
    (∃ f, initField env c!"map" [(c!"value", .field (.leaf {} .any)), (c!"nonempty", .val (.bool true))] = .ok f ∧
      process env 1 f (.dict []) .inbound false [c!"m"] = .ok (.dict [])) :=
  ⟨⟨_, rfl, rfl⟩, ⟨_, rfl, rfl⟩, ⟨_, rfl, rfl⟩⟩

end

/-! ### examples -/

namespace DeclareEx

/-- `Integer(minimum=True, maximum=9, nonnull=True, name='n')` -/
def number : Args := [(c!"minimum", .val (.bool true)), (c!"maximum", .val (.int 9)), (c!"nonnull", .val (.bool true)),
  (c!"name", .val (.str c!"n")), (c!"constant", .val .none)]

theorem number_ordinary : Ordinary number := by
  refine ⟨by simp [number], ?_, ?_, ?_, ?_, ?_, ?_, ?_⟩
  · simp [number]
  · rintro v ⟨h, -⟩; cases h; exact ⟨_, rfl⟩
  · rintro v ⟨h, -⟩; cases h
  · rintro v ⟨h, -⟩; cases h
  · rintro v ⟨h, -⟩; cases h
  · rintro v ⟨h, -⟩; cases h
  · rintro ⟨_, h, -⟩; cases h

example : ∃ f, initField Ex.env c!"integer" number = .ok f :=
  (C70_integer_declared number_ordinary).1.2 fun k hk b hb => by
    simp only [List.mem_cons, List.not_mem_nil, or_false] at hk
    rcases hk with rfl | rfl
    · have : b = .bool true := Gives.unique ⟨rfl, by simp⟩ hb
      exact ⟨1, .inr (.inl ⟨this, rfl⟩)⟩
    · have : b = .int 9 := Gives.unique ⟨rfl, by simp⟩ hb
      exact ⟨9, .inl this⟩

example : process Ex.env 1 (.leaf { name := some c!"n", nonnull := true } (.integer (some 1) (some 9))) (.int 9) .inbound false [c!"n"] =
    .ok (.int 9) :=
  (C70_integer (args := number) (env := Ex.env) rfl (by simp) .inbound (by simp)).2
    (by
      refine ⟨9, rfl, rfl, ?_, ?_, ?_⟩
      · rintro k ⟨h, h'⟩; cases h; exact absurd rfl h'
      · rintro b m ⟨h, -⟩ hm
        cases h
        rcases hm with h | ⟨-, rfl⟩ | ⟨h, -⟩
        · cases h
        · decide
        · cases h
      · rintro b m ⟨h, -⟩ hm
        cases h
        rcases hm with h | ⟨h, -⟩ | ⟨h, -⟩ <;> cases h
        decide)

/-- A bound of the wrong type. -/
example : initField Ex.env c!"float" [(c!"minimum", .val (.int 1))] = .error (.py .typeError) := rfl

/-- A date range in texts. -/
example : initField Ex.env c!"date" [(c!"minimum", .val (.str c!"2020-01-31"))] =
    .ok (.leaf {} (.date (some ⟨2020, 1, 31⟩) none)) := by rfl

example : initField Ex.env c!"text" [(c!"nonempty", .val (.bool true)), (c!"strip", .val (.bool false))] =
    .ok (.leaf { nonnull := true, required := true } (.text none (some 1) none false)) := rfl

example : initField Ex.env c!"enumeration" [(c!"enumeration", .val (.list [.int 1, .decimal (.fin false 1 0)]))] =
    .error (.py .typeError) := rfl

end DeclareEx

end Scheme
