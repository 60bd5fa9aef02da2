import Verif.Model.Timezone
import Verif.Lemmas.DateTime

/-! Counting days and back. -/

namespace Scheme

/-- An existing day, of any year. -/
def RealDay (d : PDate) : Prop :=
  1 ≤ d.year ∧ 1 ≤ d.month ∧ d.month ≤ 12 ∧ 1 ≤ d.day ∧ d.day ≤ daysInMonth d.year d.month

theorem succ_div (k n : Nat) (hn : 0 < n) : (1 + k) / n = k / n + if (1 + k) % n = 0 then 1 else 0 := by
  have a := Nat.div_add_mod k n
  have b := Nat.mod_lt k hn
  by_cases h : k % n + 1 = n
  · have e : 1 + k = n * (k / n + 1) := by rw [Nat.mul_add]; omega
    rw [e, if_pos (Nat.mul_mod_right ..), Nat.mul_div_cancel_left _ hn]
  · have e : 1 + k = (k % n + 1) + n * (k / n) := by omega
    have hl : k % n + 1 < n := by omega
    rw [e, Nat.add_mul_div_left _ _ hn, Nat.add_mul_mod_self_left, Nat.mod_eq_of_lt hl, Nat.div_eq_of_lt hl,
      if_neg (by omega)]
    omega

theorem daysBeforeYear_succ {y : Nat} (h : 1 ≤ y) :
    daysBeforeYear (y + 1) = daysBeforeYear y + (if isLeap y then 366 else 365) := by
  obtain ⟨k, rfl⟩ := Nat.exists_eq_add_of_le h
  simp only [daysBeforeYear, Nat.add_sub_cancel_left, Nat.add_sub_cancel]
  rw [succ_div k 4 (by omega), succ_div k 100 (by omega), succ_div k 400 (by omega)]
  have le : k / 100 ≤ k / 4 := by omega
  have i1 : (1 + k) % 400 = 0 → (1 + k) % 100 = 0 := by omega
  have i2 : (1 + k) % 100 = 0 → (1 + k) % 4 = 0 := by omega
  unfold isLeap
  by_cases h4 : (1 + k) % 4 = 0 <;> by_cases h100 : (1 + k) % 100 = 0 <;> by_cases h400 : (1 + k) % 400 = 0 <;>
    simp [h4, h100, h400] <;> simp only [h4, h100, h400, true_implies, not_true_eq_false] at i1 i2 <;>
    (generalize k / 4 = a at *; generalize k / 100 = b at *; generalize k / 400 = c at *; omega)

theorem daysBeforeMonth_end (y : Nat) : daysBeforeMonth y 12 + daysInMonth y 12 = if isLeap y then 366 else 365 := by
  simp only [daysBeforeMonth, daysInMonth]
  cases isLeap y <;> simp

theorem daysBeforeMonth_succ (y : Nat) {m : Nat} (h : 1 ≤ m) :
    daysBeforeMonth y (m + 1) = daysBeforeMonth y m + daysInMonth y m := by
  obtain ⟨k, rfl⟩ := Nat.exists_eq_add_of_le' h
  rfl

theorem daysInMonth_bounds (y m : Nat) : 28 ≤ daysInMonth y m ∧ daysInMonth y m ≤ 31 := by
  unfold daysInMonth
  split
  · split <;> omega
  · split <;> omega

theorem nextDay_real {d : PDate} (h : RealDay d) : RealDay (nextDay d) := by
  obtain ⟨h1, h2, h3, h4, h5⟩ := h
  unfold nextDay
  split
  · rename_i hc; exact ⟨h1, h2, h3, by simp, hc⟩
  · split
    · rename_i hm
      exact ⟨h1, by simp, hm, by simp, by have := daysInMonth_bounds d.year (d.month + 1); simp only; omega⟩
    · exact ⟨by simp, by simp, by simp, by simp, by have := daysInMonth_bounds (d.year + 1) 1; simp only; omega⟩

theorem dayCount_nextDay {d : PDate} (h : RealDay d) : dayCount (nextDay d) = dayCount d + 1 := by
  obtain ⟨h1, h2, h3, h4, h5⟩ := h
  unfold nextDay
  split
  · simp only [dayCount]; omega
  · rename_i hd
    split
    · simp only [dayCount]
      rw [daysBeforeMonth_succ _ h2]; omega
    · have hm : d.month = 12 := by omega
      simp only [dayCount, hm] at *
      rw [daysBeforeYear_succ h1, ← daysBeforeMonth_end]
      show _ + 0 + 0 = _
      omega

theorem dateOfCount_real (n : Nat) : RealDay (dateOfCount n) ∧ dayCount (dateOfCount n) = n := by
  induction n with
  | zero => exact ⟨⟨by decide, by decide, by decide, by decide, by decide⟩, rfl⟩
  | succ n ih => exact ⟨nextDay_real ih.1, by rw [dateOfCount, dayCount_nextDay ih.1, ih.2]⟩

theorem daysBeforeYear_mono {a b : Nat} (ha : 1 ≤ a) (h : a ≤ b) : daysBeforeYear a ≤ daysBeforeYear b := by
  induction h with
  | refl => exact Nat.le_refl _
  | step hb ih => 
    rw [daysBeforeYear_succ (by exact Nat.le_trans ha hb)]; omega

theorem daysBeforeMonth_mono (y : Nat) {a b : Nat} (ha : 1 ≤ a) (h : a ≤ b) : daysBeforeMonth y a ≤ daysBeforeMonth y b := by
  induction h with
  | refl => exact Nat.le_refl _
  | step hb ih =>
    rw [daysBeforeMonth_succ y (Nat.le_trans ha hb)]; omega

theorem dayOfYear_lt {d : PDate} (h : RealDay d) :
    daysBeforeMonth d.year d.month + (d.day - 1) < if isLeap d.year then 366 else 365 := by
  obtain ⟨h1, h2, h3, h4, h5⟩ := h
  rw [← daysBeforeMonth_end]
  have := daysBeforeMonth_succ d.year h2
  by_cases hm : d.month = 12
  · rw [hm] at h5 ⊢; omega
  · have := daysBeforeMonth_mono d.year (a := d.month + 1) (b := 12) (by omega) (by omega)
    omega

theorem dayCount_inj {d e : PDate} (hd : RealDay d) (he : RealDay e) (h : dayCount d = dayCount e) : d = e := by
  have hy : d.year = e.year := by
    have a := dayOfYear_lt hd
    have b := dayOfYear_lt he
    have := daysBeforeYear_succ hd.1
    have := daysBeforeYear_succ he.1
    simp only [dayCount] at h
    rcases Nat.lt_trichotomy d.year e.year with hl | hl | hl
    · have := daysBeforeYear_mono (a := d.year + 1) (by omega) hl; omega
    · exact hl
    · have := daysBeforeYear_mono (a := e.year + 1) (by omega) hl; omega
  have hm : d.month = e.month := by
    obtain ⟨a1, a2, a3, a4, a5⟩ := hd
    obtain ⟨b1, b2, b3, b4, b5⟩ := he
    simp only [dayCount, hy] at h a5 
    have := daysBeforeMonth_succ e.year a2
    have := daysBeforeMonth_succ e.year b2
    rcases Nat.lt_trichotomy d.month e.month with hl | hl | hl
    · have := daysBeforeMonth_mono e.year (a := d.month + 1) (by omega) hl; omega
    · exact hl
    · have := daysBeforeMonth_mono e.year (a := e.month + 1) (by omega) hl; omega
  have hdd : d.day = e.day := by
    obtain ⟨a1, a2, a3, a4, a5⟩ := hd
    obtain ⟨b1, b2, b3, b4, b5⟩ := he
    simp only [dayCount, hy, hm] at h
    omega
  cases d; cases e; simp_all

theorem RealDay.calendar {d : PDate} (h : RealDay d) (hc : dayCount d < 3652059) : CalendarDate d := by
  obtain ⟨h1, h2, h3, h4, h5⟩ := h
  refine ⟨h1, ?_, h4, by rw [← daysInMonth_eq _ _ h2 h3]; exact h5⟩
  by_cases hy : d.year ≤ 9999
  · exact hy
  · have := daysBeforeYear_mono (a := 10000) (b := d.year) (by omega) (by omega)
    have e : daysBeforeYear 10000 = 3652059 := by decide
    simp only [dayCount] at hc
    omega

theorem CalendarDate.real {d : PDate} (h : CalendarDate d) : RealDay d ∧ dayCount d < 3652059 := by
  obtain ⟨h1, h2, h3, h4⟩ := h
  obtain ⟨h5, h6⟩ := monthLength_pos h3 h4
  have hr : RealDay d := ⟨h1, h5, h6, h3, by rw [daysInMonth_eq _ _ h5 h6]; exact h4⟩
  refine ⟨hr, ?_⟩
  have := dayOfYear_lt hr
  have := daysBeforeYear_succ h1
  have := daysBeforeYear_mono (a := d.year + 1) (b := 10000) (by omega) (by omega)
  have e : daysBeforeYear 10000 = 3652059 := by decide
  simp only [dayCount]
  omega

/-- Wall clocks and datetimes correspond. -/
theorem ofWall_wallOf {w : Int} (tz : Tz) (h0 : 0 ≤ w) (h1 : w < wallEnd) :
    wallOf (ofWall w tz) = w ∧ CalendarDate (ofWall w tz).date ∧ ClockTime (ofWall w tz).time := by
  simp only [wallEnd, usDay] at h1
  obtain ⟨hr, hn⟩ := dateOfCount_real (w / usDay).toNat
  refine ⟨?_, hr.calendar ?_, ?_⟩
  · simp only [usDay] at hn
    simp only [wallOf, ofWall, timeOfCount, usDay, hn]
    omega
  · rw [hn]; simp only [usDay]; omega
  · simp only [ofWall, timeOfCount, ClockTime, usDay]; omega

theorem wallOf_range {d : PDateTime} (hd : CalendarDate d.date) (ht : ClockTime d.time) :
    0 ≤ wallOf d ∧ wallOf d < wallEnd := by
  have := hd.real.2
  obtain ⟨_, _, _, _⟩ := ht
  simp only [wallOf, wallEnd, usDay]
  omega

theorem wallOf_inj {d e : PDateTime} (hd : CalendarDate d.date) (ht : ClockTime d.time) (he : CalendarDate e.date)
    (hs : ClockTime e.time) (hz : d.tz = e.tz) (h : wallOf d = wallOf e) : d = e := by
  obtain ⟨a1, a2, a3, a4⟩ := ht
  obtain ⟨b1, b2, b3, b4⟩ := hs
  simp only [wallOf, usDay] at h
  have hc : dayCount d.date = dayCount e.date := by omega
  have := dayCount_inj hd.real.1 he.real.1 hc
  obtain ⟨dd, ⟨dh, dm, ds, du⟩, dz⟩ := d
  obtain ⟨ed, ⟨eh, em, es, eu⟩, ez⟩ := e
  simp only at *
  subst this
  subst hz
  congr 1
  simp only [PTime.mk.injEq]
  omega

end Scheme
