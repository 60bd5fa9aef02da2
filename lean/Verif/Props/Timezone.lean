import Verif.Spec.Timezone
import Verif.Lemmas.Calendar
import Verif.Props.DateTime
import Verif.Lemmas.Basic

/-! C63: time zones. -/

namespace Scheme

theorem adigit_inj {a b : Nat} (ha : a < 10) (hb : b < 10) (h : adigit a = adigit b) : a = b := by
  have x := digitChar_toNat a ha
  have y := digitChar_toNat b hb
  have : digitChar a = digitChar b := h
  rw [this] at x
  omega

theorem natStr_one {n : Nat} (h : n < 10) : natStr n = [adigit n] := by
  rw [natStr_step, if_pos h]; rfl

theorem natStr_two {n : Nat} (h1 : 10 ≤ n) (h2 : n < 100) : natStr n = [adigit (n / 10), adigit (n % 10)] := by
  rw [natStr_step, if_neg (by omega), natStr_one (by omega)]; rfl

/-- The zone of an offset in minutes, without a name. -/
theorem init_minutes {o : Int} (h1 : -1440 < o) (h2 : o < 1440) :
    FixedZone.init (some o) none = .ok ⟨none, some (o * 60000000)⟩ := by
  have : tdMinutes o = .ok (o * 60000000) := by
    unfold tdMinutes
    rw [if_pos]
    · rfl
    · simp only [usMinute, usDay]; omega
  simp only [FixedZone.init, this]; rfl

/-- The text of a nameless zone. -/
theorem tzname_minutes {o : Int} (h1 : -1440 < o) (h2 : o < 1440) :
    (⟨none, some (o * 60000000)⟩ : FixedZone).tzname = .ok
      ((if o < 0 then '-' else '+') :: adigit ((o / 60).natAbs / 10) :: adigit ((o / 60).natAbs % 10) ::
        (if o % 60 = 0 then [] else ':' :: natStr (o % 60).toNat)) := by
  have e : tdSeconds (o * 60000000) + tdDays (o * 60000000) * 86400 = o * 60 := by
    simp only [tdSeconds, tdDays, usDay, usSecond]; omega
  simp only [FixedZone.tzname, e]
  have hh : o * 60 / 3600 = o / 60 := by omega
  have hm : o * 60 % 3600 = o % 60 * 60 := by omega
  have hs : (o / 60 < 0) = (o < 0) := propext (by omega)
  rw [hh, hm]
  have p : plus03d (o / 60) = (if o < 0 then '-' else '+') :: adigit ((o / 60).natAbs / 10) ::
      [adigit ((o / 60).natAbs % 10)] := by
    simp only [plus03d, hs]
    rw [padNat_two (by omega)]
  rw [p]
  by_cases hz : o % 60 = 0
  · rw [if_neg (by omega), if_pos hz]
  · rw [if_pos (by omega), if_neg hz, show o % 60 * 60 / 60 = o % 60 by omega]; rfl

/-- C63. The name of a zone made from an offset in minutes is a sign, the hours rounded down in two digits, and the
minutes above that, if any, in as many digits as they have. -/
theorem C63_name (o : Int) (h1 : -1440 < o) (h2 : o < 1440) :
    ∃ (z : FixedZone) (h : Int) (m : Nat), FixedZone.init (some o) none = .ok z ∧ o = 60 * h + m ∧ m < 60 ∧
      z.tzname = .ok ((if h < 0 then '-' else '+') :: adigit (h.natAbs / 10) :: adigit (h.natAbs % 10) ::
        (if m = 0 then [] else if m < 10 then [':', adigit m] else [':', adigit (m / 10), adigit (m % 10)])) := by
  refine ⟨_, o / 60, (o % 60).toNat, init_minutes h1 h2, by omega, by omega, ?_⟩
  rw [tzname_minutes h1 h2]
  have hs : (o / 60 < 0) = (o < 0) := propext (by omega)
  simp only [hs]
  congr 4
  by_cases hz : o % 60 = 0
  · rw [if_pos hz, if_pos (by omega)]
  · rw [if_neg hz, if_neg (by omega)]
    by_cases ht : (o % 60).toNat < 10
    · rw [if_pos ht, natStr_one ht]
    · rw [if_neg ht, natStr_two (by omega) (by omega)]

example : ∃ z, FixedZone.init (some (-90)) none = .ok z ∧ z.tzname = .ok c!"-02:30" := ⟨_, rfl, rfl⟩
example : ∃ z, FixedZone.init (some 65) none = .ok z ∧ z.tzname = .ok c!"+01:5" := ⟨_, rfl, rfl⟩

/-- C63. Read in the customary way the name gives the offset exactly if it is a number of hours, or is positive and
has at least ten minutes above the hours. -/
theorem C63_name_reads (o : Int) (h1 : -1440 < o) (h2 : o < 1440) (z : FixedZone) (s : Str)
    (hz : FixedZone.init (some o) none = .ok z) (hs : z.tzname = .ok s) :
    IsoOffset s o ↔ (o % 60 = 0 ∨ 0 < o ∧ 10 ≤ o % 60) := by
  obtain ⟨z', h, m, e1, e2, e3, e4⟩ := C63_name o h1 h2
  cases Except.ok.inj (hz.symm.trans e1)
  cases Except.ok.inj (hs.symm.trans e4)
  have hm : o % 60 = m := by omega
  by_cases m0 : m = 0
  · subst m0
    rw [if_pos rfl]
    refine ⟨fun _ => .inl (by omega), fun _ => ⟨decide (h < 0), h.natAbs, 0, by omega, by omega, .inr ⟨rfl, by simp⟩, ?_⟩⟩
    by_cases hn : h < 0
    · simp [hn]; omega
    · simp [hn]; omega
  rw [if_neg m0]
  by_cases m1 : m < 10
  · rw [if_pos m1]
    constructor
    · rintro ⟨n, h', m', _, _, hc | ⟨_, hc⟩, _⟩
      · have := congrArg List.length hc; simp at this
      · have := congrArg List.length hc; simp at this
    · omega
  rw [if_neg m1]
  by_cases hn : h < 0
  · simp only [hn, if_true]
    constructor
    · rintro ⟨n, h', m', g1, g2, hc | ⟨_, hc⟩, e⟩
      · simp only [List.cons.injEq, and_true, true_and] at hc
        obtain ⟨c1, c2, c3, c4, c5⟩ := hc
        have := adigit_inj (by omega) (by omega) c2
        have := adigit_inj (by omega) (by omega) c3
        have := adigit_inj (by omega) (by omega) c4
        have := adigit_inj (by omega) (by omega) c5
        cases n with
        | false => cases c1
        | true => simp only [if_true] at e; omega
      · have := congrArg List.length hc; simp at this
    · omega
  · simp only [hn, if_false]
    refine ⟨fun _ => .inr (by omega), fun _ => ⟨false, h.natAbs, m, by omega, e3, .inl (by simp), ?_⟩⟩
    simp; omega

example : IsoOffset c!"+05:30" 330 := ⟨false, 5, 30, by omega, by omega, .inl rfl, by decide⟩

/-- C63. Different offsets have different names. -/
theorem C63_name_injective (o p : Int) (h1 : -1440 < o) (h2 : o < 1440) (g1 : -1440 < p) (g2 : p < 1440)
    (z y : FixedZone) (s : Str) (hz : FixedZone.init (some o) none = .ok z) (hy : FixedZone.init (some p) none = .ok y)
    (hs : z.tzname = .ok s) (ht : y.tzname = .ok s) : o = p := by
  obtain ⟨_, h, m, e1, e2, e3, e4⟩ := C63_name o h1 h2
  obtain ⟨_, k, n, f1, f2, f3, f4⟩ := C63_name p g1 g2
  cases Except.ok.inj (hz.symm.trans e1)
  cases Except.ok.inj (hy.symm.trans f1)
  have e := Except.ok.inj ((e4.symm.trans hs).trans (ht.symm.trans f4))
  simp only [List.cons.injEq] at e
  obtain ⟨c1, c2, c3, c4⟩ := e
  have := adigit_inj (by omega) (by omega) c2
  have := adigit_inj (by omega) (by omega) c3
  have hk : (h < 0) ↔ (k < 0) := by
    constructor
    · intro a; rw [if_pos a] at c1; by_cases b : k < 0; exact b; rw [if_neg b] at c1; cases c1
    · intro a; rw [if_pos a] at c1; by_cases b : h < 0; exact b; rw [if_neg b] at c1; cases c1
  have hm : m = n := by
    by_cases m0 : m = 0 <;> by_cases n0 : n = 0
    · omega
    · rw [if_pos m0, if_neg n0] at c4; split at c4 <;> cases c4
    · rw [if_neg m0, if_pos n0] at c4; split at c4 <;> cases c4
    · rw [if_neg m0, if_neg n0] at c4
      split at c4 <;> split at c4
      · simp only [List.cons.injEq, and_true, true_and] at c4
        exact adigit_inj (by omega) (by omega) c4
      · have := congrArg List.length c4; simp at this
      · have := congrArg List.length c4; simp at this
      · simp only [List.cons.injEq, and_true, true_and] at c4
        have := adigit_inj (by omega) (by omega) c4.1
        have := adigit_inj (by omega) (by omega) c4.2
        omega
  omega

/-- C63. A given name is the name, whatever the offset; a zone with neither has none: AttributeError. -/
theorem C63_named (o : Option Int) (n : Str) (z : FixedZone) (h : FixedZone.init o (some n) = .ok z) :
    z.tzname = .ok n := by
  cases o with
  | none => cases h; rfl
  | some m =>
    simp only [FixedZone.init, except_map_eq_ok] at h
    obtain ⟨d, _, rfl⟩ := h
    rfl

theorem C63_nameless : ∃ z, FixedZone.init none none = .ok z ∧ z.tzname = .error .attributeError ∧
    z.repr = .error .attributeError := ⟨_, rfl, rfl, rfl⟩

/-- C63. The repr of a nameless zone tells the offset only up to whole days: two have the same exactly if they are
equal or a day apart. -/
theorem C63_repr (o p : Int) (h1 : -1440 < o) (h2 : o < 1440) (g1 : -1440 < p) (g2 : p < 1440)
    (z y : FixedZone) (hz : FixedZone.init (some o) none = .ok z) (hy : FixedZone.init (some p) none = .ok y) :
    z.repr = y.repr ↔ (o = p ∨ o = p + 1440 ∨ p = o + 1440) := by
  cases Except.ok.inj (hz.symm.trans (init_minutes h1 h2))
  cases Except.ok.inj (hy.symm.trans (init_minutes g1 g2))
  have hs : ∀ q : Int, tdSeconds (q * 60000000) = ((q % 1440 * 60).toNat : Nat) := by
    intro q; simp only [tdSeconds, usDay, usSecond]; omega
  have : (⟨none, some (o * 60000000)⟩ : FixedZone).repr = (⟨none, some (p * 60000000)⟩ : FixedZone).repr ↔
      natStr (o % 1440 * 60).toNat = natStr (p % 1440 * 60).toNat := by
    simp only [FixedZone.repr, hs, intStr]
    constructor
    · intro e
      exact List.append_cancel_left (List.append_cancel_right (Except.ok.inj e))
    · intro e; rw [e]
  rw [this]
  constructor
  · intro e
    have := natStr_inj e
    omega
  · intro e
    rw [show o % 1440 = p % 1440 by omega]

example : ∃ z y, FixedZone.init (some (-60)) none = .ok z ∧ FixedZone.init (some 1380) none = .ok y ∧
    z.repr = .ok c!"FixedOffsetTimezone(82800)" ∧ y.repr = z.repr := ⟨_, _, rfl, rfl, rfl, rfl⟩

/-! ### Conversions -/

theorem offsetChecked_ok {o : Int} (h1 : -86400000000 < o) (h2 : o < 86400000000) : offsetChecked o = .ok o := by
  unfold offsetChecked
  rw [if_pos ⟨h1, h2⟩]

theorem offsetChecked_eq {o p : Int} (h : offsetChecked o = .ok p) : p = o := by
  unfold offsetChecked at h
  split at h
  · cases h; rfl
  · cases h

theorem wallAdd_ok {w d : Int} (h : InYears (w + d)) : wallAdd w d = .ok (w + d) := by
  unfold wallAdd
  rw [if_pos]
  exact h

theorem wallAdd_eq {w d r : Int} (h : wallAdd w d = .ok r) : r = w + d ∧ InYears r := by
  unfold wallAdd at h
  split at h
  · rename_i hc; cases h; exact ⟨rfl, hc⟩
  · cases h

/-- The offsets of LOCAL. -/
def Clock.offset (clk : Clock) (b : Bool) : Int := if b then clk.dst else clk.std

theorem clock_offset (clk : Clock) (b : Bool) :
    clk.offset b = (if b ∧ clk.daylight then -clk.altzone else -clk.timezone) * 1000000 := by
  cases b <;> cases h : clk.daylight <;> simp [Clock.offset, Clock.dst, Clock.std, usSecond, h]

/-- What `utcoffset` answers is the offset in force. -/
theorem utcoffset_at {clk : Clock} {tz : Tz} {w o : Int} (h : clk.utcoffset tz w = .ok (some o)) :
    OffsetAt clk tz w o := by
  cases tz with
  | utc =>
    simp only [Clock.utcoffset, Clock.fixed, utcZone, except_map_eq_ok] at h
    obtain ⟨p, hp, e⟩ := h
    cases e
    exact offsetChecked_eq hp
  | other i =>
    simp only [Clock.utcoffset, Clock.fixed] at h
    show (clk.others i).offset = some o
    cases ho : (clk.others i).offset with
    | none => rw [ho] at h; cases h
    | some p =>
      rw [ho] at h
      simp only [except_map_eq_ok] at h
      obtain ⟨q, hq, e⟩ := h
      cases e
      rw [offsetChecked_eq hq]
  | localTz =>
    simp only [Clock.utcoffset, Clock.fixed] at h
    rw [except_bind_eq_ok] at h
    obtain ⟨b, hb, h⟩ := h
    rw [except_map_eq_ok] at h
    obtain ⟨p, hp, e⟩ := h
    cases e
    refine ⟨b, hb, ?_⟩
    rw [offsetChecked_eq hp, ← clock_offset]; rfl

theorem offsetAt_unique {clk : Clock} {tz : Tz} {w o p : Int} (h : OffsetAt clk tz w o) (g : OffsetAt clk tz w p) :
    o = p := by
  cases tz with
  | utc => exact h.trans g.symm
  | other i => exact Option.some.inj (Eq.trans (Eq.symm h) g)
  | localTz =>
    obtain ⟨b, hb, rfl⟩ := h
    obtain ⟨c, hc, rfl⟩ := g
    cases hb.symm.trans hc
    rfl

/-- `astimezone` goes through the instant. -/
theorem astimezone_split {clk : Clock} {a b : Tz} {w w' o : Int} (hab : a ≠ b) (ho : OffsetAt clk a w o)
    (h : clk.astimezone a b w = .ok w') : InYears (w - o) ∧ clk.fromutc b (w - o) = .ok w' := by
  rw [Clock.astimezone, if_neg hab, except_bind_eq_ok] at h
  obtain ⟨p, hp, h⟩ := h
  rw [except_bind_eq_ok] at h
  obtain ⟨u, hu, h⟩ := h
  have : p = o := by
    rw [Clock.sourceOffset, except_bind_eq_ok] at hp
    obtain ⟨q, hq, hp⟩ := hp
    cases q with
    | some q => cases hp; exact offsetAt_unique (utcoffset_at hq) ho
    | none =>
      exfalso
      cases a with
      | utc =>
        simp only [Clock.utcoffset, Clock.fixed, utcZone, except_map_eq_ok] at hq
        obtain ⟨_, _, e⟩ := hq
        cases e
      | other i =>
        simp only [Clock.utcoffset, Clock.fixed] at hq
        rw [show (clk.others i).offset = some o from ho] at hq
        simp only [except_map_eq_ok] at hq
        obtain ⟨_, _, e⟩ := hq
        cases e
      | localTz =>
        simp only [Clock.utcoffset, Clock.fixed, except_bind_eq_ok, except_map_eq_ok] at hq
        obtain ⟨_, _, _, _, e⟩ := hq
        cases e
  subst this
  obtain ⟨rfl, hy⟩ := wallAdd_eq hu
  exact ⟨hy, h⟩

/-- `fromutc` of a zone with a fixed offset. -/
theorem fromutc_fixed {clk : Clock} {b : Tz} {u w' : Int} (hb : b ≠ .localTz) (h : clk.fromutc b u = .ok w') :
    OffsetAt clk b u (w' - u) ∧ OffsetAt clk b w' (w' - u) ∧ InYears w' := by
  rw [Clock.fromutc, except_bind_eq_ok] at h
  obtain ⟨o, ho, h⟩ := h
  cases o with
  | none => cases h
  | some o =>
    have hd : ∀ x, clk.dstAt b x = .ok 0 := by
      intro x
      cases b with
      | localTz => exact absurd rfl hb
      | utc => rfl
      | other i => rfl
    simp only [hd, except_bind_ok] at h
    rw [except_bind_eq_ok] at h
    obtain ⟨r, hr, h⟩ := h
    obtain ⟨rfl, _⟩ := wallAdd_eq hr
    obtain ⟨rfl, hy⟩ := wallAdd_eq h
    have e := utcoffset_at ho
    have : u + (o - 0) + 0 - u = o := by omega
    rw [this]
    refine ⟨e, ?_, hy⟩
    cases b with
    | localTz => exact absurd rfl hb
    | utc => exact e
    | other i => exact e

/-- C63. Converting to UTC, or to another zone of fixed offset, keeps the instant. -/
theorem C63_fixed (clk : Clock) (a b : Tz) (hab : a ≠ b) (hb : b ≠ .localTz) (w w' u : Int)
    (hu : WallDenotes clk a w u) (h : clk.astimezone a b w = .ok w') : WallDenotes clk b w' u := by
  obtain ⟨o, ho, rfl⟩ := hu
  obtain ⟨_, h⟩ := astimezone_split hab ho h
  obtain ⟨_, h2, _⟩ := fromutc_fixed hb h
  exact ⟨_, h2, by omega⟩

/-- `fromutc` of LOCAL: standard time first, and then, if that wall clock is daylight saving time, the difference. -/
theorem fromutc_local {clk : Clock} {u w' : Int} (h : clk.fromutc .localTz u = .ok w') :
    ∃ b, clk.isdst ((u + clk.std) / 1000000) = .ok b ∧ w' = u + clk.offset b ∧ InYears w' := by
  rw [Clock.fromutc, except_bind_eq_ok] at h
  obtain ⟨o, ho, h⟩ := h
  simp only [Clock.utcoffset, Clock.fixed] at ho
  rw [except_bind_eq_ok] at ho
  obtain ⟨b0, hb0, ho⟩ := ho
  rw [except_map_eq_ok] at ho
  obtain ⟨p, hp, rfl⟩ := ho
  have hp := offsetChecked_eq hp
  simp only [except_bind_eq_ok] at h
  obtain ⟨d, hd, r, hr, d', hd', h⟩ := h
  simp only [Clock.dstAt, Clock.fixed] at hd hd'
  rw [except_bind_eq_ok] at hd hd'
  obtain ⟨b1, hb1, hd⟩ := hd
  obtain ⟨b2, hb2, hd'⟩ := hd'
  cases hb0.symm.trans hb1
  have hd := offsetChecked_eq hd
  have hd' := offsetChecked_eq hd'
  obtain ⟨rfl, _⟩ := wallAdd_eq hr
  obtain ⟨rfl, hy⟩ := wallAdd_eq h
  have e : u + (p - d) = u + clk.std := by
    subst hp; subst hd
    cases b0 <;> simp [Clock.diff] <;> omega
  rw [e] at hb2 hy ⊢
  refine ⟨b2, hb2, ?_, hy⟩
  subst hd'
  cases b2 <;> simp [Clock.offset, Clock.diff] <;> omega

/-- C63. Converting to LOCAL: the wall clock is the instant plus the offset in force when the wall clock shows the
instant's *standard* time. -/
theorem C63_local (clk : Clock) (a : Tz) (ha : a ≠ .localTz) (w w' u : Int)
    (hu : WallDenotes clk a w u) (h : clk.astimezone a .localTz w = .ok w') :
    OffsetAt clk .localTz (u - clk.timezone * 1000000) (w' - u) := by
  obtain ⟨o, ho, rfl⟩ := hu
  obtain ⟨_, h⟩ := astimezone_split ha ho h
  obtain ⟨b, hb, rfl, _⟩ := fromutc_local h
  refine ⟨b, ?_, ?_⟩
  · rw [← hb]
    congr 2
    simp only [Clock.std, usSecond]; omega
  · rw [← clock_offset]; omega

/-- C63. So the instant is kept exactly if the same offset is in force at the wall clock arrived at. -/
theorem C63_local_instant (clk : Clock) (a : Tz) (ha : a ≠ .localTz) (w w' u : Int)
    (hu : WallDenotes clk a w u) (h : clk.astimezone a .localTz w = .ok w') (o o' : Int)
    (ho : OffsetAt clk .localTz (u - clk.timezone * 1000000) o) (ho' : OffsetAt clk .localTz w' o') :
    WallDenotes clk .localTz w' u ↔ o' = o := by
  have := offsetAt_unique (C63_local clk a ha w w' u hu h) ho
  constructor
  · rintro ⟨p, hp, e⟩
    have := offsetAt_unique hp ho'
    omega
  · rintro rfl
    exact ⟨o', ho', by omega⟩

/-- C63. To UTC and back is the identity on LOCAL datetimes exactly if the offset in force is that in force at the
same instant's standard time. -/
theorem C63_there_and_back (clk : Clock) (w u w' o o' : Int) (h1 : clk.astimezone .localTz .utc w = .ok u)
    (h2 : clk.astimezone .utc .localTz u = .ok w') (ho : OffsetAt clk .localTz w o)
    (ho' : OffsetAt clk .localTz (w - o - clk.timezone * 1000000) o') : w' = w ↔ o' = o := by
  have hu : u = w - o := by
    obtain ⟨_, h⟩ := astimezone_split (by simp) ho h1
    obtain ⟨h2, _, _⟩ := fromutc_fixed (by simp) h
    have : u - (w - o) = 0 := h2
    omega
  subst hu
  have := offsetAt_unique (C63_local clk .utc (by simp) _ w' (w - o) ⟨0, rfl, by omega⟩ h2) ho'
  omega

/-- C63. Two instants get the same LOCAL wall clock, and are lost, if they lie the difference of the offsets apart, the
standard wall clock of the first being in daylight saving time and that of the second not. -/
theorem C63_merged (clk : Clock) (hd : clk.daylight = true) (u v w w' : Int)
    (hv : v = u + (clk.timezone - clk.altzone) * 1000000)
    (hs : clk.isdst ((u - clk.timezone * 1000000) / 1000000) = .ok true)
    (hw : clk.isdst ((v - clk.timezone * 1000000) / 1000000) = .ok false)
    (h1 : clk.astimezone .utc .localTz u = .ok w) (h2 : clk.astimezone .utc .localTz v = .ok w') : w = w' := by
  have e1 := offsetAt_unique (C63_local clk .utc (by simp) u w u ⟨0, rfl, by omega⟩ h1) ⟨true, hs, rfl⟩
  have e2 := offsetAt_unique (C63_local clk .utc (by simp) v w' v ⟨0, rfl, by omega⟩ h2) ⟨false, hw, rfl⟩
  simp [hd] at e1 e2
  omega

/-- C63. The offset of LOCAL less its daylight saving part is always its standard offset, as Python requires. -/
theorem C63_consistent (clk : Clock) (w o d : Int) (ho : clk.utcoffset .localTz w = .ok (some o))
    (hd : clk.dstAt .localTz w = .ok d) : o - d = -clk.timezone * 1000000 := by
  simp only [Clock.utcoffset, Clock.dstAt, Clock.fixed, except_bind_eq_ok, except_map_eq_ok] at ho hd
  obtain ⟨b, hb, p, hp, e⟩ := ho
  obtain ⟨b', hb', hd⟩ := hd
  cases hb.symm.trans hb'
  cases e
  rw [offsetChecked_eq hp, offsetChecked_eq hd]
  cases b <;> simp [Clock.diff, Clock.std, usSecond] <;> omega

/-- C63. Conversions succeed for clocks that answer, away from the ends of the calendar. -/
theorem C63_succeeds (clk : Clock) (hc : SaneClock clk) (ht : ∀ s, ∃ b, clk.isdst s = .ok b) (w : Int)
    (h1 : InYears (w - 172800000000)) (h2 : InYears (w + 172800000000)) :
    (∃ w', clk.astimezone .utc .localTz w = .ok w') ∧ ∃ u, clk.astimezone .localTz .utc w = .ok u := by
  obtain ⟨c1, c2, c3, c4, c5, c6⟩ := hc
  obtain ⟨y1, _⟩ := h1
  obtain ⟨_, y2⟩ := h2
  have std : clk.std = -clk.timezone * 1000000 := rfl
  have off : ∀ b, -86400000000 < clk.offset b ∧ clk.offset b < 86400000000 := by
    intro b
    rw [clock_offset]
    split <;> omega
  have dif : ∀ b : Bool, -86400000000 < (if b then clk.diff else 0) ∧ (if b then clk.diff else 0) < 86400000000 := by
    intro b
    cases b
    · simp
    · simp only [if_true, Clock.diff, Clock.dst, Clock.std, usSecond]
      cases clk.daylight <;> simp <;> omega
  have uo : ∀ x, ∃ b, clk.isdst (x / 1000000) = .ok b ∧ clk.utcoffset .localTz x = .ok (some (clk.offset b)) ∧
      clk.dstAt .localTz x = .ok (if b then clk.diff else 0) := by
    intro x
    obtain ⟨b, hb⟩ := ht (x / usSecond)
    refine ⟨b, hb, ?_, ?_⟩
    · simp only [Clock.utcoffset, Clock.fixed, hb, except_bind_ok]
      rw [show (if b = true then clk.dst else clk.std) = clk.offset b from rfl, offsetChecked_ok (off b).1 (off b).2]
      rfl
    · simp only [Clock.dstAt, Clock.fixed, hb, except_bind_ok]
      exact offsetChecked_ok (dif b).1 (dif b).2
  have utc : ∀ x, clk.utcoffset .utc x = .ok (some 0) := fun _ => rfl
  constructor
  · obtain ⟨b0, _, e1, e2⟩ := uo w
    have e3 : w + (clk.offset b0 - if b0 then clk.diff else 0) = w + clk.std := by
      cases b0 <;> simp [Clock.offset, Clock.diff] <;> omega
    obtain ⟨b1, _, _, e4⟩ := uo (w + clk.std)
    have e5 : w + clk.std + (if b1 then clk.diff else 0) = w + clk.offset b1 := by
      cases b1 <;> simp [Clock.offset, Clock.diff] <;> omega
    refine ⟨w + clk.offset b1, ?_⟩
    rw [Clock.astimezone, if_neg (by simp), Clock.sourceOffset, utc, except_bind_ok, except_bind_ok]
    rw [show wallAdd w (-0) = .ok w from (wallAdd_ok (d := 0) ⟨by omega, by omega⟩).trans (by simp), except_bind_ok]
    simp only [Clock.fromutc, e1, except_bind_ok, e2]
    rw [wallAdd_ok (by rw [e3]; exact ⟨by omega, by omega⟩), except_bind_ok, e3, e4, except_bind_ok]
    rw [wallAdd_ok (by rw [e5]; exact ⟨by have := off b1; omega, by have := off b1; omega⟩), e5]
  · obtain ⟨b0, _, e1, e2⟩ := uo w
    refine ⟨w - clk.offset b0, ?_⟩
    have := off b0
    rw [Clock.astimezone, if_neg (by simp), Clock.sourceOffset, e1, except_bind_ok, except_bind_ok,
      wallAdd_ok ⟨by omega, by omega⟩, except_bind_ok, Clock.fromutc, utc, except_bind_ok]
    simp only [show ∀ x, clk.dstAt .utc x = .ok 0 from fun _ => rfl, except_bind_ok]
    rw [wallAdd_ok ⟨by omega, by omega⟩, except_bind_ok, wallAdd_ok ⟨by omega, by omega⟩]
    congr 1
    omega

/-- C63. With a clock that is right wherever only one answer is, an instant gets the wall clock it has, unless it lies
within the first hour (the difference of the offsets) after a change. -/
theorem C63_right_wall (clk : Clock) (summer : Int → Bool) (hc : HonestClock clk summer) (u w' : Int)
    (hs : summer (u / 1000000 - (clk.timezone - clk.altzone)) = summer (u / 1000000))
    (h : clk.astimezone .utc .localTz u = .ok w') :
    w' = u - (if summer (u / 1000000) then clk.altzone else clk.timezone) * 1000000 := by
  obtain ⟨b, hb, hh⟩ := hc.2 (u / 1000000 - clk.timezone)
  rw [show u / 1000000 - clk.timezone + clk.timezone = u / 1000000 by omega,
    show u / 1000000 - clk.timezone + clk.altzone = u / 1000000 - (clk.timezone - clk.altzone) by omega] at hh
  have hb' := hh hs.symm
  rw [hs] at hb'
  have := offsetAt_unique (C63_local clk .utc (by simp) u w' u ⟨0, rfl, by omega⟩ h)
    ⟨b, by rw [← hb]; congr 1; omega, rfl⟩
  rw [hb'] at this
  simp only [hc.1, and_true] at this
  split at this <;> simp_all <;> omega

/-- C63. And the instant is kept, and converted back, unless it lies within an hour of a change. -/
theorem C63_kept (clk : Clock) (summer : Int → Bool) (hc : HonestClock clk summer) (u w' : Int)
    (h1 : summer (u / 1000000 - (clk.timezone - clk.altzone)) = summer (u / 1000000))
    (h2 : summer (u / 1000000 + (clk.timezone - clk.altzone)) = summer (u / 1000000))
    (h : clk.astimezone .utc .localTz u = .ok w') :
    WallDenotes clk .localTz w' u ∧ ∀ u', clk.astimezone .localTz .utc w' = .ok u' → u' = u := by
  have hw := C63_right_wall clk summer hc u w' h1 h
  have key : WallDenotes clk .localTz w' u := by
    obtain ⟨b, hb, hh⟩ := hc.2 (w' / 1000000)
    refine ⟨_, ⟨b, hb, rfl⟩, ?_⟩
    cases hsu : summer (u / 1000000) with
    | true =>
      rw [hsu] at hw h2
      simp only [if_true] at hw
      rw [show w' / 1000000 + clk.timezone = u / 1000000 + (clk.timezone - clk.altzone) by omega,
        show w' / 1000000 + clk.altzone = u / 1000000 by omega, h2, hsu] at hh
      rw [hh rfl]
      simp only [hc.1, and_self, if_true]; omega
    | false =>
      rw [hsu] at hw h1
      simp only [Bool.false_eq_true, if_false] at hw
      rw [show w' / 1000000 + clk.timezone = u / 1000000 by omega,
        show w' / 1000000 + clk.altzone = u / 1000000 - (clk.timezone - clk.altzone) by omega, h1, hsu] at hh
      rw [hh rfl]
      simp only [Bool.false_eq_true, false_and, if_false]; omega
  refine ⟨key, fun u' hu' => ?_⟩
  obtain ⟨o, ho, e⟩ := C63_fixed clk .localTz .utc (by simp) (by simp) w' u' u key hu'
  have : o = 0 := ho
  omega

/-! ### DateTime fields -/

/-- `astimezone` between LOCAL and UTC, on datetimes. -/
theorem astz_of {clk : Clock} {d : PDateTime} {a b : Tz} {w : Int} (ha : d.tz = some a) (hab : a ≠ b)
    (h : clk.astimezone a b (wallOf d) = .ok w) : clk.astz d b = .ok (ofWall w b) := by
  simp only [Clock.astz, ha, if_neg hab, h]
  rfl

theorem astimezone_years {clk : Clock} {a b : Tz} {w w' : Int} (hab : a ≠ b) (h : clk.astimezone a b w = .ok w') :
    InYears w' := by
  rw [Clock.astimezone, if_neg hab, except_bind_eq_ok] at h
  obtain ⟨_, _, h⟩ := h
  rw [except_bind_eq_ok] at h
  obtain ⟨_, _, h⟩ := h
  cases b with
  | localTz => obtain ⟨_, _, _, h⟩ := fromutc_local h; exact h
  | utc => exact (fromutc_fixed (by simp) h).2.2
  | other i => exact (fromutc_fixed (by simp) h).2.2

/-- C63. A DateTime field that keeps local time reads what it wrote for a datetime of whole seconds as the same
datetime exactly if the offset in force is that in force at the same instant's standard time. -/
theorem C63_field_round_trip (env : Env) (clk : Clock) (henv : env.astz = clk.astz) (hc : SaneClock clk)
    (ht : ∀ s, ∃ b, clk.isdst s = .ok b) (n : Nat) (c : Common) (mn mx : Option PDateTime)
    (hpre : c.pre = none) (hconst : c.constant = .none) (d : PDateTime) (hz : d.tz = some .localTz)
    (hd : CalendarDate d.date) (hct : ClockTime d.time) (hm : d.time.micro = 0)
    (hy1 : 1001 ≤ d.date.year) (hy2 : d.date.year ≤ 9998) (anc : List Str) (ha : anc ≠ []) (o o' : Int)
    (ho : OffsetAt clk .localTz (wallOf d) o)
    (ho' : OffsetAt clk .localTz (wallOf d - o - clk.timezone * 1000000) o')
    (h : process env (n + 1) (.leaf c (.datetime mn mx false)) (.datetime d) .inbound false anc = .ok (.datetime d)) :
    ∃ s, process env (n + 1) (.leaf c (.datetime mn mx false)) (.datetime d) .outbound true anc = .ok s ∧
      (process env (n + 1) (.leaf c (.datetime mn mx false)) s .inbound true anc = .ok (.datetime d) ↔ o' = o) := by
  have hr := hd.real.1
  have hlo : 365242 ≤ dayCount d.date := by
    have := daysBeforeYear_mono (a := 1001) (b := d.date.year) (by omega) hy1
    have e : daysBeforeYear 1001 = 365242 := by decide
    simp only [dayCount]; omega
  have hhi : dayCount d.date < 3651694 := by
    have := daysBeforeYear_mono (a := d.date.year + 1) (b := 9999) (by omega) (by omega)
    have e : daysBeforeYear 9999 = 3651694 := by decide
    have := dayOfYear_lt hr
    have := daysBeforeYear_succ hr.1
    simp only [dayCount]; omega
  have hw : 365242 * 86400000000 ≤ wallOf d ∧ wallOf d < 3651694 * 86400000000 ∧ wallOf d % 1000000 = 0 := by
    obtain ⟨_, _, _, _⟩ := hct
    simp only [wallOf, usDay, hm]; omega
  obtain ⟨w1, w2, w3⟩ := hw
  have hoff : -86400000000 < o ∧ o < 86400000000 ∧ o % 1000000 = 0 := by
    obtain ⟨b, _, rfl⟩ := ho
    obtain ⟨_, _, _, _, _, _⟩ := hc
    split <;> omega
  obtain ⟨_, u, hu⟩ := C63_succeeds clk hc ht (wallOf d) ⟨by omega, by omega⟩ ⟨by omega, by omega⟩
  have hue : u = wallOf d - o := by
    obtain ⟨_, h⟩ := astimezone_split (by simp) ho hu
    obtain ⟨h2, _, _⟩ := fromutc_fixed (by simp) h
    have : u - (wallOf d - o) = 0 := h2
    omega
  obtain ⟨⟨w', hw'⟩, _⟩ := C63_succeeds clk hc ht u ⟨by omega, by omega⟩ ⟨by omega, by omega⟩
  have hback := C63_there_and_back clk (wallOf d) u w' o o' hu hw' ho ho'
  have hx : env.astz d .utc = .ok (ofWall u .utc) := by rw [henv]; exact astz_of hz (by simp) hu
  obtain ⟨x1, x2, x3⟩ := ofWall_wallOf .utc (w := u) (by omega) (by simp only [wallEnd, usDay]; omega)
  have hx' : env.astz (ofWall u .utc) .localTz = .ok (ofWall w' .localTz) := by
    rw [henv]; exact astz_of rfl (by simp) (by rw [x1]; exact hw')
  obtain ⟨y1, y2, y3⟩ := ofWall_wallOf .localTz (w := w') (astimezone_years (by simp) hw').1
    (astimezone_years (by simp) hw').2
  have xm : (ofWall u .utc).time.micro = 0 := by
    simp only [ofWall, timeOfCount, usDay]; omega
  have xy : 1000 ≤ (ofWall u .utc).date.year := by
    obtain ⟨r, rn⟩ := dateOfCount_real (u / usDay).toNat
    by_cases hlt : 1000 ≤ (ofWall u .utc).date.year
    · exact hlt
    · exfalso
      have := daysBeforeYear_mono (a := (dateOfCount (u / usDay).toNat).year + 1) (b := 1000) (by omega)
        (by have : ¬ 1000 ≤ (dateOfCount (u / usDay).toNat).year := hlt; omega)
      have e : daysBeforeYear 1000 = 364877 := by decide
      have := dayOfYear_lt r
      have := daysBeforeYear_succ r.1
      simp only [dayCount, usDay] at *
      omega
  refine ⟨_, C18_serialize env n c mn mx false hpre _ (by simp) d _ hx hz x2 x3 (.inr xy) anc ha h, ?_⟩
  rw [C18_text env n c mn mx false hpre _ _ (dateTimeText_iso env.u x2 x3 rfl xm) x2 x3 .inbound anc ha]
  rw [process_leaf_native (NoPre.mk' hpre (by simp)) (NotNull.mk' (by simp) (by simp)) ha, except_bind_eq_ok] at h
  obtain ⟨v', _, h⟩ := h
  obtain ⟨d0, d1, _, hn, heq, hb⟩ := validate_datetime.1 h
  cases heq
  rw [process_leaf_native (NoPre.mk' hpre (by simp)) (NotNull.mk' (by simp) (by simp)) ha,
    checkConst_ok (.inl hconst), except_bind_ok, validate_datetime, ← hback]
  constructor
  · rintro ⟨d0, d1, e1, hn', e2, _⟩
    cases e1
    cases e2
    rcases hn' with ⟨h1, _⟩ | ⟨h1, _⟩ | ⟨z, h1, _, h2⟩
    · cases h1
    · cases h1
    · have := Except.ok.inj (hx'.symm.trans h2)
      rw [← this, y1]
  · intro e
    have : ofWall w' .localTz = d := wallOf_inj y2 y3 hd hct hz.symm (by rw [y1, e])
    exact ⟨_, d, rfl, .inr (.inr ⟨.utc, rfl, by simp [fieldZone], by rw [← this]; exact hx'⟩), rfl, hb⟩

/-! ### A clock -/

/-- An hour ahead of UTC, two from instant 10000000 to instant 20000000 (seconds since year 1). -/
def exClock : Clock where
  timezone := -3600
  altzone := -7200
  daylight := true
  isdst s := .ok (decide (10003600 ≤ s ∧ s < 20003600))
  system _ := .ok 0
  others _ := ⟨none, some 0⟩

/-- When that is. -/
def exSummer (s : Int) : Bool := decide (10000000 ≤ s ∧ s < 20000000)

theorem exClock_honest : HonestClock exClock exSummer := by
  refine ⟨rfl, fun s => ⟨_, rfl, ?_⟩⟩
  intro h
  simp only [exSummer, exClock] at h ⊢
  have h' := decide_eq_decide.1 h
  apply decide_eq_decide.2
  omega

theorem exClock_sane : SaneClock exClock := by
  refine ⟨?_, ?_, ?_, ?_, ?_, ?_⟩ <;> decide

/-- C63. Whatever the clock answers where two answers are right, the instants of the last hour of daylight saving time
and those an hour later are not all kept. -/
theorem C63_always_lost (clk : Clock) (summer : Int → Bool) (hc : HonestClock clk summer) (u v w w' : Int)
    (hv : v = u + (clk.timezone - clk.altzone) * 1000000) (hne : clk.timezone ≠ clk.altzone)
    (h1 : summer (u / 1000000 - (clk.timezone - clk.altzone)) = true) (h2 : summer (u / 1000000) = true)
    (h3 : summer (v / 1000000) = false) (h4 : summer (v / 1000000 + (clk.timezone - clk.altzone)) = false)
    (hu : clk.astimezone .utc .localTz u = .ok w) (hv' : clk.astimezone .utc .localTz v = .ok w') :
    ¬ (WallDenotes clk .localTz w u ∧ WallDenotes clk .localTz w' v) := by
  rintro ⟨⟨o, ho, eo⟩, ⟨o', ho', eo'⟩⟩
  have hw := C63_right_wall clk summer hc u w (h1.trans h2.symm) hu
  rw [h2] at hw
  simp only [if_true] at hw
  obtain ⟨b, hb, e⟩ := C63_local clk .utc (by simp) v w' v ⟨0, rfl, by omega⟩ hv'
  cases b with
  | false =>
    simp only [Bool.false_eq_true, false_and, if_false] at e
    have : w' = w := by omega
    subst this
    have := offsetAt_unique ho ho'
    omega
  | true =>
    simp only [hc.1, and_self, if_true] at e
    obtain ⟨b', hb', hh⟩ := hc.2 (w' / 1000000)
    rw [show w' / 1000000 + clk.timezone = v / 1000000 + (clk.timezone - clk.altzone) by omega,
      show w' / 1000000 + clk.altzone = v / 1000000 by omega, h3, h4] at hh
    have := offsetAt_unique ho' ⟨b', hb', rfl⟩
    rw [hh rfl] at this
    simp only [Bool.false_eq_true, false_and, if_false] at this
    omega

/-- C63. An hour is lost when daylight saving time ends: with a clock that is right wherever only one answer is,
two instants an hour apart get the same LOCAL datetime. -/
theorem C63_lost : HonestClock exClock exSummer ∧ SaneClock exClock ∧
    ∃ w, exClock.astimezone .utc .localTz 19999000000000 = .ok w ∧
      exClock.astimezone .utc .localTz 20002600000000 = .ok w := ⟨exClock_honest, exClock_sane, _, rfl, rfl⟩

/-- C63. A wall clock that daylight saving time skips changes by the round trip. -/
theorem C63_skipped : ∃ u, exClock.astimezone .localTz .utc 10004000000000 = .ok u ∧
    exClock.astimezone .utc .localTz u = .ok 10000400000000 := ⟨_, rfl, rfl⟩

/-- the hypotheses of C63_always_lost -/
example : exSummer (19999000000000 / 1000000 - 3600) = true ∧ exSummer (19999000000000 / 1000000) = true ∧
    exSummer (20002600000000 / 1000000) = false ∧ exSummer (20002600000000 / 1000000 + 3600) = false ∧
    exClock.timezone - exClock.altzone = 3600 := ⟨rfl, rfl, rfl, rfl, rfl⟩

/-- the hypotheses of C63_kept -/
example : exSummer (15000000000000 / 1000000 - (exClock.timezone - exClock.altzone)) = exSummer (15000000000000 / 1000000) ∧
    exSummer (15000000000000 / 1000000 + (exClock.timezone - exClock.altzone)) = exSummer (15000000000000 / 1000000) ∧
    exClock.astimezone .utc .localTz 15000000000000 = .ok 15007200000000 := ⟨rfl, rfl, rfl⟩

/-- of C63_there_and_back, with different offsets -/
example : OffsetAt exClock .localTz 10004000000000 7200000000 ∧
    OffsetAt exClock .localTz (10004000000000 - 7200000000 - exClock.timezone * 1000000) 3600000000 :=
  ⟨⟨true, rfl, rfl⟩, ⟨false, rfl, rfl⟩⟩

/-- of C63_field_round_trip -/
example : CalendarDate ⟨2000, 2, 29⟩ ∧ ClockTime ⟨12, 30, 0, 0⟩ ∧ ∀ s, ∃ b, exClock.isdst s = .ok b :=
  ⟨⟨by decide, by decide, by decide, by decide⟩, ⟨by decide, by decide, by decide, by decide⟩, fun _ => ⟨_, rfl⟩⟩

end Scheme
