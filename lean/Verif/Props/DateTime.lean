import Verif.Lemmas.Leaf
import Verif.Lemmas.DateTime
import Verif.Spec.Examples

/-! C16, C17, C18: dates, times and datetimes. -/

namespace Scheme

/-! ### Orders -/

theorem date_lexLt (a b : PDate) : lexLt a.key b.key = true ↔ DateBefore a b := by
  simp [PDate.key, lexLt, DateBefore]

theorem time_lexLt {a b : PTime} (ha : ClockTime a) (hb : ClockTime b) :
    lexLt a.key b.key = true ↔ microOfDay a < microOfDay b := by
  obtain ⟨a1, a2, a3, a4⟩ := ha
  obtain ⟨b1, b2, b3, b4⟩ := hb
  simp only [PTime.key, lexLt, Bool.or_eq_true, Bool.and_eq_true, decide_eq_true_eq, beq_iff_eq,
    microOfDay, Bool.false_eq_true, and_false, or_false]
  omega

theorem datetime_lexLt {a b : PDateTime} (ha : ClockTime a.time) (hb : ClockTime b.time) :
    lexLt a.key b.key = true ↔ WallBefore a b := by
  have e : lexLt a.key b.key = true ↔
      lexLt a.date.key b.date.key = true ∨ a.date = b.date ∧ lexLt a.time.key b.time.key = true := by
    obtain ⟨⟨y, m, d⟩, ⟨h, mi, s, u⟩, z⟩ := a
    obtain ⟨⟨y', m', d'⟩, ⟨h', mi', s', u'⟩, z'⟩ := b
    simp only [PDateTime.key, PDate.key, PTime.key, List.cons_append, List.nil_append, lexLt, Bool.or_eq_true,
      Bool.and_eq_true, decide_eq_true_eq, beq_iff_eq, Bool.false_eq_true, and_false, or_false, PDate.mk.injEq]
    omega
  rw [e, date_lexLt, time_lexLt ha hb, WallBefore]

/-- A bound check that found no violation. -/
theorem bounds_split {α ε β : Type} {lo hi : α → Bool} {mn mx : Option α} {e1 e2 : ε} {r : Except ε β} {w : β} :
    ((if violates lo mn then .error e1 else if violates hi mx then .error e2 else r : Except ε β) = .ok w) ↔
      (∀ m, mn = some m → lo m = false) ∧ (∀ m, mx = some m → hi m = false) ∧ r = .ok w := by
  rw [← violates_false, ← violates_false]
  cases violates lo mn <;> cases violates hi mx <;> simp

/-! ### Dates -/

theorem validate_date {env : Env} {f : Field} {mn mx : Option PDate} {v w : Val} {anc : List Str} :
    validateLeaf env f (.date mn mx) v anc = .ok w ↔
      w = v ∧ ((∃ d, v = .date d ∧ (∀ m, mn = some m → ¬ DateBefore d m) ∧ (∀ m, mx = some m → ¬ DateBefore m d)) ∨
        (∃ d, v = .datetime d ∧ mn = none ∧ mx = none)) := by
  cases v with
  | date d =>
    simp only [validateLeaf, bounds_split, ← date_lexLt, Bool.not_eq_true, Val.date.injEq, exists_eq_left', reduceCtorEq,
      false_and, exists_false, or_false, Except.ok.injEq]
    constructor
    · rintro ⟨h1, h2, rfl⟩; exact ⟨rfl, h1, h2⟩
    · rintro ⟨rfl, h1, h2⟩; exact ⟨h1, h2, rfl⟩
  | datetime d =>
    simp only [validateLeaf]
    cases mn <;> cases mx <;> simp [eq_comm]
  | _ => simp [validateLeaf]

/-- C16. Native dates: accepted iff within the inclusive bounds, returned unchanged.  A datetime is
accepted as well (`isinstance(datetime, date)`), but only by a field without bounds. -/
theorem C16_native_iff (env : Env) (n : Nat) (c : Common) (mn mx : Option PDate) (hpre : c.pre = none)
    (v w : Val) (hv : v ≠ .none) (ph : Phase) (anc : List Str) (ha : anc ≠ []) :
    process env (n + 1) (.leaf c (.date mn mx)) v ph false anc = .ok w ↔
      w = v ∧ ConstOk c v ∧
      ((∃ d, v = .date d ∧ (∀ m, mn = some m → ¬ DateBefore d m) ∧ (∀ m, mx = some m → ¬ DateBefore m d)) ∨
        (∃ d, v = .datetime d ∧ mn = none ∧ mx = none)) := by
  rw [process_leaf_native (NoPre.mk' hpre (by simp)) (NotNull.mk' hv (by simp)) ha, except_bind_eq_ok]
  simp only [checkConst_eq_ok, validate_date]
  constructor
  · rintro ⟨_, ⟨rfl, h⟩, h2, h3⟩; exact ⟨h2, h, h3⟩
  · rintro ⟨h1, h2, h3⟩; exact ⟨_, ⟨rfl, h2⟩, h1, h3⟩

/-- C16. Serialized text: accepted iff it spells an existing day (four digit year, month, day), within
the bounds; the result is that day. -/
theorem C16_text_iff (env : Env) (n : Nat) (c : Common) (mn mx : Option PDate) (hpre : c.pre = none)
    (s : Str) (w : Val) (anc : List Str) (ha : anc ≠ []) :
    process env (n + 1) (.leaf c (.date mn mx)) (.str s) .inbound true anc = .ok w ↔
      ∃ d, DateText env.u s d ∧ CalendarDate d ∧ w = .date d ∧ ConstOk c w ∧
        (∀ m, mn = some m → ¬ DateBefore d m) ∧ (∀ m, mx = some m → ¬ DateBefore m d) := by
  rw [process_leaf_in (NoPre.mk' hpre (by simp)) (NotNull.mk' (by simp) (by simp)) ha]
  simp only [unserializeLeaf]
  cases hp : parseDate env.u s with
  | none =>
    simp only [except_bind_error, reduceCtorEq, false_iff]
    rintro ⟨d, h1, h2, _⟩
    rw [(parseDate_iff _ _ _).2 ⟨h1, h2⟩] at hp; simp at hp
  | some d =>
    have hd := (parseDate_iff _ _ _).1 hp
    simp only [except_bind_ok, except_bind_eq_ok, checkConst_eq_ok, validate_date]
    constructor
    · rintro ⟨_, ⟨rfl, h⟩, rfl, h3⟩
      rcases h3 with ⟨d', h4, h5, h6⟩ | ⟨d', h4, _⟩
      · cases h4; exact ⟨d, hd.1, hd.2, rfl, h, h5, h6⟩
      · simp at h4
    · rintro ⟨d', h1, h2, rfl, h4, h5⟩
      have : d' = d := by
        have := (parseDate_iff _ _ _).2 ⟨h1, h2⟩
        rw [hp] at this; simp at this; exact this.symm
      subst this
      exact ⟨_, ⟨rfl, h4⟩, rfl, .inl ⟨_, rfl, h5⟩⟩

/-- C16. Any other text, and anything that is neither text nor a date, is an InvalidTypeError. -/
theorem C16_bad_text (env : Env) (n : Nat) (c : Common) (mn mx : Option PDate) (hpre : c.pre = none)
    (hp : plainErrors (.leaf c (.date mn mx))) (v : Val) (hv : v ≠ .none)
    (hbad : ∀ s, v = .str s → ∀ d, DateText env.u s d → ¬ CalendarDate d)
    (hnd : (∀ d, v ≠ .date d) ∧ ∀ d, v ≠ .datetime d) (anc : List Str) (ha : anc ≠ []) :
    Raises (process env (n + 1) (.leaf c (.date mn mx)) v .inbound true anc) .invalidType anc v c!"invalid" := by
  rw [process_leaf_in (NoPre.mk' hpre (by simp)) (NotNull.mk' hv (by simp)) ha]
  have hinv : Raises (.error (mkErr (.leaf c (.date mn mx)) .invalidType anc v c!"invalid" []))
      .invalidType anc v c!"invalid" := Raises.of_mkErr hp ⟨_, rfl, rfl⟩
  cases v with
  | str s =>
    simp only [unserializeLeaf]
    have : parseDate env.u s = none := by
      cases h : parseDate env.u s with
      | none => rfl
      | some d => have := (parseDate_iff _ _ _).1 h; exact absurd this.2 (hbad s rfl d this.1)
    rw [this]; exact hinv
  | date d => exact absurd rfl (hnd.1 d)
  | datetime d => exact absurd rfl (hnd.2 d)
  | _ => exact hinv

/-- C16. The serialized form is YYYY-MM-DD. -/
theorem C16_serialize (env : Env) (n : Nat) (c : Common) (mn mx : Option PDate) (hpre : c.pre = none)
    (d : PDate) (hd : CalendarDate d) (hy : env.padYear = true ∨ 1000 ≤ d.year) (anc : List Str) (ha : anc ≠ []) :
    process env (n + 1) (.leaf c (.date mn mx)) (.date d) .outbound true anc =
      process env (n + 1) (.leaf c (.date mn mx)) (.date d) .inbound false anc >>= fun _ => .ok (.str (isoDate d)) := by
  rw [process_leaf_out' (NoPre.mk' hpre (by simp)) (NotNull.mk' (by simp) (by simp)) ha]
  cases h : process env (n + 1) (.leaf c (.date mn mx)) (.date d) .inbound false anc with
  | error e => rfl
  | ok w =>
    have := ((C16_native_iff env n c mn mx hpre _ w (by simp) .inbound anc ha).1 h).1
    subst this
    simp only [except_bind_ok, serOut, serializeLeaf, dateStr_iso hd hy]

/-- C16. Unserializing the serialized form is processing the date itself. -/
theorem C16_round_trip (env : Env) (n : Nat) (c : Common) (mn mx : Option PDate) (hpre : c.pre = none)
    (d : PDate) (hd : CalendarDate d) (hy : env.padYear = true ∨ 1000 ≤ d.year) (s : Val) (anc : List Str) (ha : anc ≠ [])
    (hs : process env (n + 1) (.leaf c (.date mn mx)) (.date d) .outbound true anc = .ok s) :
    process env (n + 1) (.leaf c (.date mn mx)) s .inbound true anc = .ok (.date d) := by
  rw [C16_serialize env n c mn mx hpre d hd hy anc ha, except_bind_eq_ok] at hs
  obtain ⟨w, hw, hs⟩ := hs
  cases hs
  obtain ⟨rfl, hc, h⟩ := (C16_native_iff env n c mn mx hpre _ w (by simp) .inbound anc ha).1 hw
  rw [C16_text_iff env n c mn mx hpre _ _ anc ha]
  rcases h with ⟨d', h, h1, h2⟩ | ⟨d', h, _⟩
  · cases h; exact ⟨d, dateText_iso env.u hd, hd, rfl, hc, h1, h2⟩
  · simp at h

example : process Ex.env 1 (.leaf {} (.date none none)) (.date ⟨2012, 2, 29⟩) .outbound true [c!"d"] =
    .ok (.str c!"2012-02-29") := rfl
example : process Ex.env 1 (.leaf {} (.date none none)) (.str c!"2012-02-29") .inbound true [c!"d"] =
    .ok (.date ⟨2012, 2, 29⟩) := rfl
example : CalendarDate ⟨2012, 2, 29⟩ := by simp [CalendarDate, monthLength]

/-- C16. A date before the minimum or after the maximum is a ValidationError with the bound's token. -/
theorem C16_bounds (env : Env) (n : Nat) (c : Common) (mn mx : Option PDate) (hpre : c.pre = none)
    (hp : plainErrors (.leaf c (.date mn mx))) (d : PDate) (hc : ConstOk c (.date d))
    (ph : Phase) (anc : List Str) (ha : anc ≠ []) :
    (∀ m, mn = some m → DateBefore d m →
      Raises (process env (n + 1) (.leaf c (.date mn mx)) (.date d) ph false anc) .validation anc (.date d) c!"minimum") ∧
    ((∀ m, mn = some m → ¬ DateBefore d m) → ∀ m, mx = some m → DateBefore m d →
      Raises (process env (n + 1) (.leaf c (.date mn mx)) (.date d) ph false anc) .validation anc (.date d) c!"maximum") := by
  rw [process_leaf_native (NoPre.mk' hpre (by simp)) (NotNull.mk' (by simp) (by simp)) ha, checkConst_ok hc,
    except_bind_ok]
  simp only [← date_lexLt]
  constructor
  · rintro m rfl h
    simp only [validateLeaf, violates_some, h, if_true]
    exact Raises.of_mkErr hp ⟨_, rfl, rfl⟩
  · rintro hm m rfl h
    have : violates (fun m => lexLt d.key m.key) mn = false :=
      (violates_false _ _).2 fun k hk => by simpa using hm k hk
    simp only [validateLeaf, this, violates_some, h, if_true, Bool.false_eq_true, if_false]
    exact Raises.of_mkErr hp ⟨_, rfl, rfl⟩

/-- C16, the failing part: on a platform whose strftime does not pad, a date of year 999 is serialized
to a text that the same field rejects. -/
theorem C16_unpadded_counterexample :
    process Ex.env 1 (.leaf {} (.date none none)) (.date ⟨999, 1, 1⟩) .outbound true [c!"d"] =
      .ok (.str c!"999-01-01") ∧
    Raises (process Ex.env 1 (.leaf {} (.date none none)) (.str c!"999-01-01") .inbound true [c!"d"])
      .invalidType [c!"d"] (.str c!"999-01-01") c!"invalid" := by
  refine ⟨rfl, _, _, rfl⟩

/-- C16, deviation: a bounded date field raises a bare TypeError for a datetime. -/
theorem C16_datetime_counterexample (m : PDate) (d : PDateTime) (ph : Phase) :
    process Ex.env 1 (.leaf {} (.date (some m) none)) (.datetime d) ph false [c!"d"] = .error (.py .typeError) := rfl

/-! ### Times -/

theorem validate_time {env : Env} {f : Field} {mn mx : Option PTime} {v w : Val} {anc : List Str}
    (hmn : ∀ m, mn = some m → ClockTime m) (hmx : ∀ m, mx = some m → ClockTime m)
    (hv : ∀ t, v = .time t → ClockTime t) :
    validateLeaf env f (.time mn mx) v anc = .ok w ↔
      w = v ∧ ∃ t, v = .time t ∧ (∀ m, mn = some m → microOfDay m ≤ microOfDay t) ∧
        (∀ m, mx = some m → microOfDay t ≤ microOfDay m) := by
  cases v with
  | time t =>
    have ht := hv t rfl
    simp only [validateLeaf, bounds_split, Val.time.injEq, exists_eq_left', Except.ok.injEq]
    have e1 : (∀ m, mn = some m → lexLt t.key m.key = false) ↔ (∀ m, mn = some m → microOfDay m ≤ microOfDay t) := by
      constructor
      · intro h m hm
        have := h m hm
        rw [← Bool.not_eq_true, time_lexLt ht (hmn m hm)] at this; omega
      · intro h m hm
        have := h m hm
        rw [← Bool.not_eq_true, time_lexLt ht (hmn m hm)]; omega
    have e2 : (∀ m, mx = some m → lexLt m.key t.key = false) ↔ (∀ m, mx = some m → microOfDay t ≤ microOfDay m) := by
      constructor
      · intro h m hm
        have := h m hm
        rw [← Bool.not_eq_true, time_lexLt (hmx m hm) ht] at this; omega
      · intro h m hm
        have := h m hm
        rw [← Bool.not_eq_true, time_lexLt (hmx m hm) ht]; omega
    rw [e1, e2]
    constructor
    · rintro ⟨h1, h2, rfl⟩; exact ⟨rfl, h1, h2⟩
    · rintro ⟨rfl, h1, h2⟩; exact ⟨h1, h2, rfl⟩
  | _ => simp [validateLeaf]

/-- C17. Native times: accepted iff within the inclusive bounds, returned unchanged. -/
theorem C17_native_iff (env : Env) (n : Nat) (c : Common) (mn mx : Option PTime) (hpre : c.pre = none)
    (hmn : ∀ m, mn = some m → ClockTime m) (hmx : ∀ m, mx = some m → ClockTime m)
    (v w : Val) (hv : v ≠ .none) (hvt : ∀ t, v = .time t → ClockTime t) (ph : Phase) (anc : List Str) (ha : anc ≠ []) :
    process env (n + 1) (.leaf c (.time mn mx)) v ph false anc = .ok w ↔
      w = v ∧ ConstOk c v ∧ ∃ t, v = .time t ∧ (∀ m, mn = some m → microOfDay m ≤ microOfDay t) ∧
        (∀ m, mx = some m → microOfDay t ≤ microOfDay m) := by
  rw [process_leaf_native (NoPre.mk' hpre (by simp)) (NotNull.mk' hv (by simp)) ha, except_bind_eq_ok]
  simp only [checkConst_eq_ok]
  constructor
  · rintro ⟨_, ⟨rfl, h⟩, h2⟩
    have := (validate_time hmn hmx hvt).1 h2
    exact ⟨this.1, h, this.2⟩
  · rintro ⟨h1, h2, h3⟩
    exact ⟨_, ⟨rfl, h2⟩, (validate_time hmn hmx hvt).2 ⟨h1, h3⟩⟩

/-- C17. Serialized text: accepted iff it spells an existing time of day, within the bounds. -/
theorem C17_text_iff (env : Env) (n : Nat) (c : Common) (mn mx : Option PTime) (hpre : c.pre = none)
    (hmn : ∀ m, mn = some m → ClockTime m) (hmx : ∀ m, mx = some m → ClockTime m)
    (s : Str) (w : Val) (anc : List Str) (ha : anc ≠ []) :
    process env (n + 1) (.leaf c (.time mn mx)) (.str s) .inbound true anc = .ok w ↔
      ∃ t, TimeText env.u s t ∧ ClockTime t ∧ w = .time t ∧ ConstOk c w ∧
        (∀ m, mn = some m → microOfDay m ≤ microOfDay t) ∧ (∀ m, mx = some m → microOfDay t ≤ microOfDay m) := by
  rw [process_leaf_in (NoPre.mk' hpre (by simp)) (NotNull.mk' (by simp) (by simp)) ha]
  simp only [unserializeLeaf]
  cases hp : parseTime env.u s with
  | none =>
    simp only [except_bind_error, reduceCtorEq, false_iff]
    rintro ⟨d, h1, h2, _⟩
    rw [(parseTime_iff _ _ _).2 ⟨h1, h2⟩] at hp; simp at hp
  | some d =>
    have hd := (parseTime_iff _ _ _).1 hp
    have hvt : ∀ t, Val.time d = .time t → ClockTime t := by rintro t h; cases h; exact hd.2
    simp only [except_bind_ok, except_bind_eq_ok, checkConst_eq_ok]
    constructor
    · rintro ⟨_, ⟨rfl, h⟩, h2⟩
      obtain ⟨rfl, d', h4, h5, h6⟩ := (validate_time hmn hmx hvt).1 h2
      cases h4; exact ⟨d, hd.1, hd.2, rfl, h, h5, h6⟩
    · rintro ⟨d', h1, h2, rfl, h4, h5⟩
      have : d' = d := by
        have := (parseTime_iff _ _ _).2 ⟨h1, h2⟩
        rw [hp] at this; simp at this; exact this.symm
      subst this
      exact ⟨_, ⟨rfl, h4⟩, (validate_time hmn hmx hvt).2 ⟨rfl, _, rfl, h5⟩⟩

/-- C17. Any other text, and anything that is neither text nor a time, is an InvalidTypeError. -/
theorem C17_bad_text (env : Env) (n : Nat) (c : Common) (mn mx : Option PTime) (hpre : c.pre = none)
    (hp : plainErrors (.leaf c (.time mn mx))) (v : Val) (hv : v ≠ .none)
    (hbad : ∀ s, v = .str s → ∀ d, TimeText env.u s d → ¬ ClockTime d)
    (hnd : ∀ d, v ≠ .time d) (anc : List Str) (ha : anc ≠ []) :
    Raises (process env (n + 1) (.leaf c (.time mn mx)) v .inbound true anc) .invalidType anc v c!"invalid" := by
  rw [process_leaf_in (NoPre.mk' hpre (by simp)) (NotNull.mk' hv (by simp)) ha]
  have hinv : Raises (.error (mkErr (.leaf c (.time mn mx)) .invalidType anc v c!"invalid" []))
      .invalidType anc v c!"invalid" := Raises.of_mkErr hp ⟨_, rfl, rfl⟩
  cases v with
  | str s =>
    simp only [unserializeLeaf]
    have : parseTime env.u s = none := by
      cases h : parseTime env.u s with
      | none => rfl
      | some d => have := (parseTime_iff _ _ _).1 h; exact absurd this.2 (hbad s rfl d this.1)
    rw [this]; exact hinv
  | time d => exact absurd rfl (hnd d)
  | _ => exact hinv

/-- C17. The serialized form is HH:MM:SS. -/
theorem C17_serialize (env : Env) (n : Nat) (c : Common) (mn mx : Option PTime) (hpre : c.pre = none)
    (t : PTime) (ht : ClockTime t) (anc : List Str) (ha : anc ≠ []) :
    process env (n + 1) (.leaf c (.time mn mx)) (.time t) .outbound true anc =
      process env (n + 1) (.leaf c (.time mn mx)) (.time t) .inbound false anc >>= fun _ => .ok (.str (isoTime t)) := by
  rw [process_leaf_out' (NoPre.mk' hpre (by simp)) (NotNull.mk' (by simp) (by simp)) ha]
  cases h : process env (n + 1) (.leaf c (.time mn mx)) (.time t) .inbound false anc with
  | error e => rfl
  | ok w =>
    rw [process_leaf_native (NoPre.mk' hpre (by simp)) (NotNull.mk' (by simp) (by simp)) ha, except_bind_eq_ok] at h
    obtain ⟨_, h1, h2⟩ := h
    obtain ⟨rfl, _⟩ := checkConst_eq_ok.1 h1
    simp only [validateLeaf, bounds_split, Except.ok.injEq] at h2
    obtain ⟨_, _, rfl⟩ := h2
    simp only [except_bind_ok, serOut, serializeLeaf, timeStr_iso ht]

/-- C17. Unserializing the serialized form is processing the time without its microseconds. -/
theorem C17_round_trip (env : Env) (n : Nat) (c : Common) (mn mx : Option PTime) (hpre : c.pre = none)
    (t : PTime) (ht : ClockTime t) (ph : Phase) (anc : List Str) (ha : anc ≠ []) :
    process env (n + 1) (.leaf c (.time mn mx)) (.str (isoTime t)) .inbound true anc =
      process env (n + 1) (.leaf c (.time mn mx)) (.time { t with micro := 0 }) ph false anc := by
  apply process_leaf_in' (NoPre.mk' hpre (by simp)) (NotNull.mk' (by simp) (by simp)) ha _ (NotNull.mk' (by simp) (by simp))
  have : parseTime env.u (isoTime t) = some { t with micro := 0 } := by
    rw [parseTime_iff]
    exact ⟨timeText_iso env.u ht, ht.1, ht.2.1, ht.2.2.1, Nat.zero_le _⟩
  simp only [unserializeLeaf, this]

/-- C17. A time before the minimum or after the maximum is a ValidationError with the bound's token. -/
theorem C17_bounds (env : Env) (n : Nat) (c : Common) (mn mx : Option PTime) (hpre : c.pre = none)
    (hmn : ∀ m, mn = some m → ClockTime m) (hmx : ∀ m, mx = some m → ClockTime m)
    (hp : plainErrors (.leaf c (.time mn mx))) (d : PTime) (hd : ClockTime d) (hc : ConstOk c (.time d))
    (ph : Phase) (anc : List Str) (ha : anc ≠ []) :
    (∀ m, mn = some m → microOfDay d < microOfDay m →
      Raises (process env (n + 1) (.leaf c (.time mn mx)) (.time d) ph false anc) .validation anc (.time d) c!"minimum") ∧
    ((∀ m, mn = some m → microOfDay m ≤ microOfDay d) → ∀ m, mx = some m → microOfDay m < microOfDay d →
      Raises (process env (n + 1) (.leaf c (.time mn mx)) (.time d) ph false anc) .validation anc (.time d) c!"maximum") := by
  rw [process_leaf_native (NoPre.mk' hpre (by simp)) (NotNull.mk' (by simp) (by simp)) ha, checkConst_ok hc,
    except_bind_ok]
  constructor
  · rintro m rfl h
    rw [← time_lexLt hd (hmn m rfl)] at h
    simp only [validateLeaf, violates_some, h, if_true]
    exact Raises.of_mkErr hp ⟨_, rfl, rfl⟩
  · rintro hm m rfl h
    rw [← time_lexLt (hmx m rfl) hd] at h
    have : violates (fun m => lexLt d.key m.key) mn = false :=
      (violates_false _ _).2 fun k hk => by
        have := hm k hk
        rw [← Bool.not_eq_true, time_lexLt hd (hmn k hk)]; omega
    simp only [validateLeaf, this, violates_some, h, if_true, Bool.false_eq_true, if_false]
    exact Raises.of_mkErr hp ⟨_, rfl, rfl⟩

example : process Ex.env 1 (.leaf {} (.time none (some ⟨20, 0, 0, 0⟩))) (.time ⟨19, 59, 1, 77⟩) .outbound true [c!"d"] =
    .ok (.str c!"19:59:01") := rfl
example : process Ex.env 1 (.leaf {} (.time none (some ⟨20, 0, 0, 0⟩))) (.str c!"19:59:01") .inbound true [c!"d"] =
    .ok (.time ⟨19, 59, 1, 0⟩) := rfl

/-! ### Datetimes -/

/-- The instant a DateTime field makes of a datetime: a zoneless one is taken to be in the field's zone,
one in the field's zone is kept, any other is converted. -/
def Normalized (env : Env) (utc : Bool) (d d' : PDateTime) : Prop :=
  (d.tz = none ∧ d' = ⟨d.date, d.time, some (fieldZone utc)⟩) ∨
  (d.tz = some (fieldZone utc) ∧ d' = d) ∨
  (∃ z, d.tz = some z ∧ z ≠ fieldZone utc ∧ env.astz d (fieldZone utc) = .ok d')

theorem normalizeDT_iff (env : Env) (utc : Bool) (d d' : PDateTime) :
    normalizeDT env utc d = .ok d' ↔ Normalized env utc d d' := by
  have hz : (if utc then Tz.utc else Tz.localTz) = fieldZone utc := rfl
  unfold normalizeDT Normalized
  simp only [hz]
  cases htz : d.tz with
  | none => simp [eq_comm]
  | some z =>
    by_cases h : z = fieldZone utc
    · simp [h, eq_comm]
    · simp [h]

theorem validate_datetime {env : Env} {f : Field} {mn mx : Option PDateTime} {utc : Bool} {v w : Val} {anc : List Str} :
    validateLeaf env f (.datetime mn mx utc) v anc = .ok w ↔
      ∃ d d', v = .datetime d ∧ Normalized env utc d d' ∧ w = .datetime d' ∧
        (∀ m, mn = some m → lexLt d'.key m.key = false) ∧ (∀ m, mx = some m → lexLt m.key d'.key = false) := by
  cases v with
  | datetime d =>
    simp only [validateLeaf, Val.datetime.injEq, exists_and_left, exists_eq_left', ← normalizeDT_iff]
    cases hn : normalizeDT env utc d with
    | error e => simp
    | ok d' =>
      simp only [bounds_split, Except.ok.injEq, exists_eq_left']
      constructor
      · rintro ⟨h1, h2, rfl⟩; exact ⟨rfl, h1, h2⟩
      · rintro ⟨rfl, h1, h2⟩; exact ⟨h1, h2, rfl⟩
  | _ => simp [validateLeaf]

/-- C18. Native datetimes: the result is the same instant in the field's zone, and lies within the
inclusive bounds. -/
theorem C18_native_iff (env : Env) (n : Nat) (c : Common) (mn mx : Option PDateTime) (utc : Bool) (hpre : c.pre = none)
    (hmn : ∀ m, mn = some m → ClockTime m.time) (hmx : ∀ m, mx = some m → ClockTime m.time)
    (hclock : ∀ d d', Normalized env utc d d' → ClockTime d.time → ClockTime d'.time)
    (v w : Val) (hv : v ≠ .none) (hvt : ∀ d, v = .datetime d → ClockTime d.time) (ph : Phase) (anc : List Str) (ha : anc ≠ []) :
    process env (n + 1) (.leaf c (.datetime mn mx utc)) v ph false anc = .ok w ↔
      ConstOk c v ∧ ∃ d d', v = .datetime d ∧ Normalized env utc d d' ∧ w = .datetime d' ∧
        (∀ m, mn = some m → ¬ WallBefore d' m) ∧ (∀ m, mx = some m → ¬ WallBefore m d') := by
  rw [process_leaf_native (NoPre.mk' hpre (by simp)) (NotNull.mk' hv (by simp)) ha, except_bind_eq_ok]
  simp only [checkConst_eq_ok, validate_datetime]
  have key : ∀ d d', v = .datetime d → Normalized env utc d d' →
      (((∀ m, mn = some m → lexLt d'.key m.key = false) ∧ (∀ m, mx = some m → lexLt m.key d'.key = false)) ↔
       ((∀ m, mn = some m → ¬ WallBefore d' m) ∧ (∀ m, mx = some m → ¬ WallBefore m d'))) := by
    intro d d' hd hn
    have hc := hclock d d' hn (hvt d hd)
    constructor
    · rintro ⟨h1, h2⟩
      exact ⟨fun m hm => by rw [← datetime_lexLt hc (hmn m hm)]; simp [h1 m hm],
        fun m hm => by rw [← datetime_lexLt (hmx m hm) hc]; simp [h2 m hm]⟩
    · rintro ⟨h1, h2⟩
      refine ⟨fun m hm => ?_, fun m hm => ?_⟩
      · have := h1 m hm; rw [← datetime_lexLt hc (hmn m hm)] at this; simpa using this
      · have := h2 m hm; rw [← datetime_lexLt (hmx m hm) hc] at this; simpa using this
  constructor
  · rintro ⟨_, ⟨rfl, h⟩, d, d', h1, h2, h3, h4⟩
    exact ⟨h, d, d', h1, h2, h3, (key d d' h1 h2).1 h4⟩
  · rintro ⟨h, d, d', h1, h2, h3, h4⟩
    exact ⟨_, ⟨rfl, h⟩, d, d', h1, h2, h3, (key d d' h1 h2).2 h4⟩

/-- C18. A validated datetime always carries the field's own zone. -/
theorem C18_zone (env : Env) (hz : ZoneLaw env) (n : Nat) (c : Common) (mn mx : Option PDateTime) (utc : Bool)
    (hpre : c.pre = none) (v w : Val) (hv : v ≠ .none) (ser : Bool) (anc : List Str) (ha : anc ≠ [])
    (h : process env (n + 1) (.leaf c (.datetime mn mx utc)) v .inbound ser anc = .ok w) :
    ∃ d, w = .datetime d ∧ d.tz = some (fieldZone utc) := by
  have key : ∃ v', validateLeaf env (.leaf c (.datetime mn mx utc)) (.datetime mn mx utc) v' anc = .ok w := by
    cases ser with
    | false =>
      rw [process_leaf_native (NoPre.mk' hpre (by simp)) (NotNull.mk' hv (by simp)) ha, except_bind_eq_ok] at h
      obtain ⟨v', _, h⟩ := h; exact ⟨v', h⟩
    | true =>
      rw [process_leaf_in (NoPre.mk' hpre (by simp)) (NotNull.mk' hv (by simp)) ha, except_bind_eq_ok] at h
      obtain ⟨_, _, h⟩ := h
      rw [except_bind_eq_ok] at h
      obtain ⟨v', _, h⟩ := h; exact ⟨v', h⟩
  obtain ⟨v', h'⟩ := key
  obtain ⟨d, d', _, hn, rfl, _⟩ := validate_datetime.1 h'
  refine ⟨d', rfl, ?_⟩
  rcases hn with ⟨_, rfl⟩ | ⟨h1, rfl⟩ | ⟨z, h1, _, h2⟩
  · rfl
  · exact h1
  · exact hz _ _ _ h2

/-- C18. Serialized text: accepted text spells a UTC wall clock; it is processed as that datetime. -/
theorem C18_text (env : Env) (n : Nat) (c : Common) (mn mx : Option PDateTime) (utc : Bool) (hpre : c.pre = none)
    (s : Str) (d : PDateTime) (ht : DateTimeText env.u s d) (hd : CalendarDate d.date) (hc : ClockTime d.time)
    (ph : Phase) (anc : List Str) (ha : anc ≠ []) :
    process env (n + 1) (.leaf c (.datetime mn mx utc)) (.str s) .inbound true anc =
      process env (n + 1) (.leaf c (.datetime mn mx utc)) (.datetime d) ph false anc := by
  apply process_leaf_in' (NoPre.mk' hpre (by simp)) (NotNull.mk' (by simp) (by simp)) ha _ (NotNull.mk' (by simp) (by simp))
  simp only [unserializeLeaf, (parseDateTime_iff env.u s d).2 ⟨ht, hd, hc⟩]

/-- C18. Any other text, and anything that is neither text nor a datetime, is an InvalidTypeError. -/
theorem C18_bad_text (env : Env) (n : Nat) (c : Common) (mn mx : Option PDateTime) (utc : Bool) (hpre : c.pre = none)
    (hp : plainErrors (.leaf c (.datetime mn mx utc))) (v : Val) (hv : v ≠ .none)
    (hbad : ∀ s, v = .str s → ∀ d, DateTimeText env.u s d → ¬ (CalendarDate d.date ∧ ClockTime d.time))
    (hnd : ∀ d, v ≠ .datetime d) (anc : List Str) (ha : anc ≠ []) :
    Raises (process env (n + 1) (.leaf c (.datetime mn mx utc)) v .inbound true anc) .invalidType anc v c!"invalid" := by
  rw [process_leaf_in (NoPre.mk' hpre (by simp)) (NotNull.mk' hv (by simp)) ha]
  have hinv : Raises (.error (mkErr (.leaf c (.datetime mn mx utc)) .invalidType anc v c!"invalid" []))
      .invalidType anc v c!"invalid" := Raises.of_mkErr hp ⟨_, rfl, rfl⟩
  cases v with
  | str s =>
    simp only [unserializeLeaf]
    have : parseDateTime env.u s = none := by
      cases h : parseDateTime env.u s with
      | none => rfl
      | some d => have := (parseDateTime_iff _ _ _).1 h; exact absurd this.2 (hbad s rfl d this.1)
    rw [this]; exact hinv
  | datetime d => exact absurd rfl (hnd d)
  | _ => exact hinv

theorem dateTimeText_iso (u : Chars) {d : PDateTime} (hd : CalendarDate d.date) (hc : ClockTime d.time)
    (hz : d.tz = some .utc) (hm : d.time.micro = 0) : DateTimeText u (isoDateTime d) d := by
  refine ⟨hz, isoDate d.date, isoTime d.time, 'T', 'Z', by simp [isoDateTime], .inl rfl, .inl rfl, dateText_iso u hd, ?_⟩
  have := timeText_iso u hc
  rwa [show ({ d.time with micro := 0 } : PTime) = d.time by rw [← hm]] at this

/-- C18. The serialized form is the UTC wall clock YYYY-MM-DDTHH:MM:SSZ of the normalized datetime:
`d'` is what the field makes of `d` and `x` is `d'` in UTC. -/
theorem C18_serialize (env : Env) (n : Nat) (c : Common) (mn mx : Option PDateTime) (utc : Bool) (hpre : c.pre = none)
    (v : Val) (hv : v ≠ .none) (d' x : PDateTime)
    (hx : if utc then x = d' else env.astz d' .utc = .ok x) (hzone : d'.tz = some (fieldZone utc))
    (hd : CalendarDate x.date) (ht : ClockTime x.time) (hy : env.padYear = true ∨ 1000 ≤ x.date.year)
    (anc : List Str) (ha : anc ≠ [])
    (h : process env (n + 1) (.leaf c (.datetime mn mx utc)) v .inbound false anc = .ok (.datetime d')) :
    process env (n + 1) (.leaf c (.datetime mn mx utc)) v .outbound true anc = .ok (.str (isoDateTime x)) := by
  rw [process_leaf_out' (NoPre.mk' hpre (by simp)) (NotNull.mk' hv (by simp)) ha, h]
  simp only [except_bind_ok, serOut, serializeLeaf]
  have : (if d'.tz = some .utc then .ok d' else env.astz d' .utc) = (.ok x : Except PyErr PDateTime) := by
    cases utc with
    | true => rw [if_pos (by rw [hzone]; rfl)]; simp only [if_true] at hx; rw [hx]
    | false => rw [if_neg (by rw [hzone]; simp [fieldZone])]; exact hx
  rw [this]
  simp only [dateTimeStr, isoDateTime, dateStr_iso hd hy, timeStr_iso ht]

/-- C18. Round trip: unserializing the serialized form gives the same instant in the field's zone, for a
datetime without microseconds, whose local wall clock is not one skipped by a daylight saving change
(converting it to UTC and back restores it). -/
theorem C18_round_trip (env : Env) (hz : ZoneLaw env) (n : Nat) (c : Common) (mn mx : Option PDateTime) (utc : Bool)
    (hpre : c.pre = none) (hconst : c.constant = .none)
    (v : Val) (hv : v ≠ .none) (d' x : PDateTime)
    (hx : if utc then x = d' else env.astz d' .utc = .ok x ∧ env.astz x .localTz = .ok d')
    (hd : CalendarDate x.date) (ht : ClockTime x.time) (hy : env.padYear = true ∨ 1000 ≤ x.date.year)
    (hm : x.time.micro = 0) (anc : List Str) (ha : anc ≠ [])
    (h : process env (n + 1) (.leaf c (.datetime mn mx utc)) v .inbound false anc = .ok (.datetime d')) :
    ∃ s, process env (n + 1) (.leaf c (.datetime mn mx utc)) v .outbound true anc = .ok s ∧
      process env (n + 1) (.leaf c (.datetime mn mx utc)) s .inbound true anc = .ok (.datetime d') := by
  obtain ⟨_, hdd, hzone⟩ := C18_zone env hz n c mn mx utc hpre v _ hv false anc ha h
  cases hdd
  refine ⟨_, C18_serialize env n c mn mx utc hpre v hv d' x (by cases utc; exact hx.1; exact hx) hzone hd ht hy anc ha h, ?_⟩
  have hxz : x.tz = some .utc := by
    cases utc with
    | true => simp only [if_true] at hx; rw [hx, hzone]; rfl
    | false => simp only [Bool.false_eq_true, if_false] at hx; exact hz _ _ _ hx.1
  rw [C18_text env n c mn mx utc hpre _ x (dateTimeText_iso env.u hd ht hxz hm) hd ht .inbound anc ha]
  rw [process_leaf_native (NoPre.mk' hpre (by simp)) (NotNull.mk' hv (by simp)) ha, except_bind_eq_ok] at h
  obtain ⟨v', _, h⟩ := h
  obtain ⟨d0, d1, _, hn, heq, hb⟩ := validate_datetime.1 h
  cases heq
  rw [process_leaf_native (NoPre.mk' hpre (by simp)) (NotNull.mk' (by simp) (by simp)) ha,
    checkConst_ok (.inl hconst), except_bind_ok, validate_datetime]
  refine ⟨x, d', rfl, ?_, rfl, hb⟩
  cases utc with
  | true => simp only [if_true] at hx; exact .inr (.inl ⟨hxz, hx.symm⟩)
  | false =>
    simp only [Bool.false_eq_true, if_false] at hx
    exact .inr (.inr ⟨.utc, hxz, by simp [fieldZone], hx.2⟩)

/-- C18. With a UTC field, serializing drops the microseconds and keeps everything else. -/
theorem C18_round_trip_micro (env : Env) (n : Nat) (c : Common) (hpre : c.pre = none) (hconst : c.constant = .none)
    (d : PDateTime) (hz : d.tz = some .utc) (hd : CalendarDate d.date) (ht : ClockTime d.time)
    (hy : env.padYear = true ∨ 1000 ≤ d.date.year) (anc : List Str) (ha : anc ≠ []) :
    ∃ s, process env (n + 1) (.leaf c (.datetime none none true)) (.datetime d) .outbound true anc = .ok s ∧
      process env (n + 1) (.leaf c (.datetime none none true)) s .inbound true anc =
        .ok (.datetime { d with time := { d.time with micro := 0 } }) := by
  have nat : ∀ e : PDateTime, e.tz = some .utc →
      process env (n + 1) (.leaf c (.datetime none none true)) (.datetime e) .inbound false anc = .ok (.datetime e) := by
    intro e he
    rw [process_leaf_native (NoPre.mk' hpre (by simp)) (NotNull.mk' (by simp) (by simp)) ha,
      checkConst_ok (.inl hconst), except_bind_ok, validate_datetime]
    exact ⟨e, e, rfl, .inr (.inl ⟨he, rfl⟩), rfl, by simp, by simp⟩
  refine ⟨_, C18_serialize env n c none none true hpre _ (by simp) d d rfl hz hd ht hy anc ha (nat d hz), ?_⟩
  have e : isoDateTime d = isoDateTime { d with time := { d.time with micro := 0 } } := rfl
  have hc' : ClockTime { d.time with micro := 0 } := ⟨ht.1, ht.2.1, ht.2.2.1, Nat.zero_le _⟩
  rw [e, C18_text env n c none none true hpre _ { d with time := { d.time with micro := 0 } }
    (dateTimeText_iso env.u hd hc' hz rfl) hd hc' .inbound anc ha]
  exact nat _ hz

/-- C18. A datetime whose normalized wall clock lies before the minimum or after the maximum is a
ValidationError with the bound's token, about the normalized datetime. -/
theorem C18_bounds (env : Env) (n : Nat) (c : Common) (mn mx : Option PDateTime) (utc : Bool) (hpre : c.pre = none)
    (hmn : ∀ m, mn = some m → ClockTime m.time) (hmx : ∀ m, mx = some m → ClockTime m.time)
    (hp : plainErrors (.leaf c (.datetime mn mx utc))) (d d' : PDateTime) (hn : Normalized env utc d d')
    (hd : ClockTime d'.time) (hc : ConstOk c (.datetime d)) (ph : Phase) (anc : List Str) (ha : anc ≠ []) :
    (∀ m, mn = some m → WallBefore d' m →
      Raises (process env (n + 1) (.leaf c (.datetime mn mx utc)) (.datetime d) ph false anc) .validation anc (.datetime d') c!"minimum") ∧
    ((∀ m, mn = some m → ¬ WallBefore d' m) → ∀ m, mx = some m → WallBefore m d' →
      Raises (process env (n + 1) (.leaf c (.datetime mn mx utc)) (.datetime d) ph false anc) .validation anc (.datetime d') c!"maximum") := by
  rw [process_leaf_native (NoPre.mk' hpre (by simp)) (NotNull.mk' (by simp) (by simp)) ha, checkConst_ok hc,
    except_bind_ok]
  rw [← normalizeDT_iff] at hn
  constructor
  · rintro m rfl h
    rw [← datetime_lexLt hd (hmn m rfl)] at h
    simp only [validateLeaf, hn, violates_some, h, if_true]
    exact Raises.of_mkErr hp ⟨_, rfl, rfl⟩
  · rintro hm m rfl h
    rw [← datetime_lexLt (hmx m rfl) hd] at h
    have : violates (fun m => lexLt d'.key m.key) mn = false :=
      (violates_false _ _).2 fun k hk => by
        have := hm k hk
        rw [← datetime_lexLt hd (hmn k hk)] at this; simpa using this
    simp only [validateLeaf, hn, this, violates_some, h, if_true, Bool.false_eq_true, if_false]
    exact Raises.of_mkErr hp ⟨_, rfl, rfl⟩

example : process Ex.env 1 (.leaf {} (.datetime none none true)) (.datetime ⟨⟨2012, 2, 29⟩, ⟨1, 2, 3, 4⟩, none⟩) .outbound true [c!"d"] =
    .ok (.str c!"2012-02-29T01:02:03Z") := rfl
example : process Ex.env 1 (.leaf {} (.datetime none none false)) (.str c!"2012-02-29T01:02:03Z") .inbound true [c!"d"] =
    .ok (.datetime ⟨⟨2012, 2, 29⟩, ⟨1, 2, 3, 0⟩, some .localTz⟩) := rfl
example : ZoneLaw Ex.env := by
  intro d w d' h
  cases h; rfl

end Scheme
