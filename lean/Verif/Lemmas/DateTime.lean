import Verif.Lemmas.Str
import Verif.Lemmas.Chars
import Verif.Spec.DateText

namespace Scheme

theorem adigit_eq (n : Nat) : adigit n = digitChar n := rfl

theorem btDigit_cons {u : Chars} {c : Char} {n : Nat} (h : digitVal u c = some n) (r : Str) :
    btDigit u (c :: r) = [(n, r)] := by simp [btDigit, h]

theorem btRng_digitChar {lo hi n : Nat} (h : n < 10) (r : Str) :
    btRng lo hi (digitChar n :: r) = if lo ≤ n ∧ n ≤ hi then [(n, r)] else [] := by
  simp only [btRng]
  rw [digitChar_toNat n h]
  by_cases hc : lo ≤ n ∧ n ≤ hi
  · rw [if_pos hc, if_pos (by omega)]; congr 2; omega
  · rw [if_neg hc, if_neg (by omega)]

theorem char_eq_digitChar {c : Char} (h1 : 48 ≤ c.toNat) (h2 : c.toNat ≤ 57) : c = digitChar (c.toNat - 48) := by
  unfold digitChar
  rw [show 48 + (c.toNat - 48) = c.toNat by omega]
  simp [Char.ofNat_toNat]

theorem mem_btRng {lo hi x : Nat} {s r : Str} (hhi : hi ≤ 9) :
    (x, r) ∈ btRng lo hi s ↔ lo ≤ x ∧ x ≤ hi ∧ s = digitChar x :: r := by
  cases s with
  | nil => simp [btRng]
  | cons c t =>
    by_cases hc : 48 + lo ≤ c.toNat ∧ c.toNat ≤ 48 + hi
    · have hcd := char_eq_digitChar (c := c) (by omega) (by omega)
      simp only [btRng, hc, and_self, if_true, List.mem_singleton, Prod.mk.injEq, List.cons.injEq]
      constructor
      · rintro ⟨rfl, rfl⟩; exact ⟨by omega, by omega, hcd, rfl⟩
      · rintro ⟨h1, h2, h3, rfl⟩
        have := digitChar_toNat x (by omega)
        rw [← h3] at this
        exact ⟨by omega, rfl⟩
    · simp only [btRng, hc, if_false, List.not_mem_nil, false_iff]
      rintro ⟨h1, h2, h3⟩
      simp only [List.cons.injEq] at h3
      have := digitChar_toNat x (by omega)
      rw [← h3.1] at this
      omega

theorem mem_btDigit {u : Chars} {x : Nat} {s r : Str} :
    (x, r) ∈ btDigit u s ↔ ∃ c, digitVal u c = some x ∧ s = c :: r := by
  cases s with
  | nil => simp [btDigit]
  | cons c t =>
    simp only [btDigit]
    cases h : digitVal u c with
    | none => simp; rintro x hx rfl; rw [h] at hx; simp at hx
    | some d =>
      simp only [List.mem_singleton, Prod.mk.injEq, List.cons.injEq]
      constructor
      · rintro ⟨rfl, rfl⟩; exact ⟨c, h, rfl, rfl⟩
      · rintro ⟨_, h', rfl, rfl⟩; rw [h] at h'; cases h'; exact ⟨rfl, rfl⟩

theorem mem_btTwo {p q : BT Nat} {x : Nat} {s r : Str} :
    (x, r) ∈ btTwo p q s ↔ ∃ a b t, (a, t) ∈ p s ∧ (b, r) ∈ q t ∧ x = a * 10 + b := by
  simp only [btTwo, List.mem_flatMap, List.mem_map, Prod.exists, Prod.mk.injEq]
  constructor
  · rintro ⟨a, t, h1, b, r', h2, rfl, rfl⟩; exact ⟨a, b, t, h1, h2, rfl⟩
  · rintro ⟨a, b, t, h1, h2, rfl⟩; exact ⟨a, t, h1, b, r, h2, rfl, rfl⟩

theorem digitVal_lt {u : Chars} {c : Char} {n : Nat} (h : digitVal u c = some n) : n < 10 := by
  unfold digitVal at h
  split at h
  · split at h
    · rename_i hd
      simp only [asciiDigit, Bool.and_eq_true, decide_eq_true_eq] at hd
      simp only [Option.some.injEq] at h; omega
    · simp at h
  · cases hu : u.udigit c with
    | none => rw [hu] at h; simp at h
    | some d => rw [hu] at h; simp only [Option.map_some, Option.some.injEq] at h; omega

theorem flatMap_head {α β : Type} {l : List α} {x : α} {f : α → List β} {y : β}
    (h : ∃ r, l = x :: r) (hf : ∃ r, f x = y :: r) : ∃ r, l.flatMap f = y :: r := by
  obtain ⟨r, rfl⟩ := h
  obtain ⟨r', h'⟩ := hf
  exact ⟨r' ++ r.flatMap f, by simp [h']⟩

theorem map_head {α β : Type} {l : List α} {x : α} {f : α → β}
    (h : ∃ r, l = x :: r) : ∃ r, l.map f = f x :: r := by
  obtain ⟨r, rfl⟩ := h
  exact ⟨r.map f, rfl⟩

/-! ### Years -/

theorem mem_btYear {u : Chars} {y : Nat} {s r : Str} :
    (y, r) ∈ btYear u s ↔ ∃ Y, s = Y ++ r ∧ YearText u Y y := by
  simp only [btYear, List.mem_flatMap, List.mem_map, Prod.exists, Prod.mk.injEq, mem_btTwo, mem_btDigit, YearText,
    IsDigit, ← digitVal_iff]
  constructor
  · rintro ⟨_, t, ⟨a, b, _, ⟨c1, h1, rfl⟩, ⟨c2, h2, rfl⟩, rfl⟩, _, _, ⟨c, d, _, ⟨c3, h3, rfl⟩, ⟨c4, h4, rfl⟩, rfl⟩, rfl, rfl⟩
    exact ⟨[c1, c2, c3, c4], rfl, c1, c2, c3, c4, a, b, c, d, rfl, h1, h2, h3, h4, by omega⟩
  · rintro ⟨Y, rfl, c1, c2, c3, c4, a, b, c, d, rfl, h1, h2, h3, h4, rfl⟩
    exact ⟨a * 10 + b, c3 :: c4 :: r, ⟨a, b, c2 :: c3 :: c4 :: r, ⟨c1, h1, rfl⟩, ⟨c2, h2, rfl⟩, rfl⟩,
      c * 10 + d, r, ⟨c, d, c4 :: r, ⟨c3, h3, rfl⟩, ⟨c4, h4, rfl⟩, rfl⟩, by omega, rfl⟩

theorem btYear_head {u : Chars} {Y : Str} {y : Nat} (h : YearText u Y y) (r : Str) :
    ∃ rest, btYear u (Y ++ r) = (y, r) :: rest := by
  obtain ⟨c1, c2, c3, c4, a, b, c, d, rfl, h1, h2, h3, h4, rfl⟩ := h
  rw [IsDigit, ← digitVal_iff] at h1 h2 h3 h4
  refine ⟨[], ?_⟩
  simp only [btYear, btTwo, List.cons_append, List.nil_append, btDigit_cons h1, btDigit_cons h2, btDigit_cons h3,
    btDigit_cons h4, List.flatMap_cons, List.flatMap_nil, List.map_cons, List.map_nil, List.append_nil]
  congr 2; omega

/-! ### Two-digit numbers -/

/-- The next character is not a digit. -/
def NoDigit (u : Chars) (r : Str) : Prop := ∀ c, r.head? = some c → digitVal u c = none

theorem btDigit_noDigit {u : Chars} {r : Str} (h : NoDigit u r) : btDigit u r = [] := by
  cases r with
  | nil => rfl
  | cons c t => simp [btDigit, h c rfl]

theorem btRng_noDigit {u : Chars} {r : Str} (h : NoDigit u r) {lo hi : Nat} (hh : hi ≤ 9) : btRng lo hi r = [] := by
  cases r with
  | nil => rfl
  | cons c t =>
    simp only [btRng]
    rw [if_neg]
    intro hc
    have := char_eq_digitChar (c := c) (by omega) (by omega)
    have hd := h c rfl
    rw [this, digitVal_digitChar u _ (by omega)] at hd
    simp at hd

theorem mem_btMonth {m : Nat} {s r : Str} : (m, r) ∈ btMonth s ↔ ∃ M, s = M ++ r ∧ MonthText M m := by
  simp only [btMonth, List.mem_append, mem_btTwo, mem_btRng (show (9 : Nat) ≤ 9 by omega), mem_btRng (show (2 : Nat) ≤ 9 by omega),
    mem_btRng (show (1 : Nat) ≤ 9 by omega), mem_btRng (show (0 : Nat) ≤ 9 by omega), MonthText, adigit_eq]
  constructor
  · rintro ((⟨a, b, t, ⟨h1, h2, rfl⟩, ⟨h3, h4, rfl⟩, rfl⟩ | ⟨a, b, t, ⟨h1, h2, rfl⟩, ⟨h3, h4, rfl⟩, rfl⟩) | ⟨h1, h2, rfl⟩)
    · refine ⟨[digitChar a, digitChar b], rfl, .inr ⟨by omega, by omega, ?_⟩⟩
      rw [show (a * 10 + b) / 10 = a by omega, show (a * 10 + b) % 10 = b by omega]
    · refine ⟨[digitChar a, digitChar b], rfl, .inr ⟨by omega, by omega, ?_⟩⟩
      rw [show (a * 10 + b) / 10 = a by omega, show (a * 10 + b) % 10 = b by omega]
    · exact ⟨[digitChar m], rfl, .inl ⟨h1, h2, rfl⟩⟩
  · rintro ⟨M, rfl, (⟨h1, h2, rfl⟩ | ⟨h1, h2, rfl⟩)⟩
    · exact .inr ⟨h1, h2, rfl⟩
    · left
      by_cases h : m < 10
      · right; exact ⟨m / 10, m % 10, digitChar (m % 10) :: r, ⟨by omega, by omega, rfl⟩, ⟨by omega, by omega, rfl⟩, by omega⟩
      · left; exact ⟨m / 10, m % 10, digitChar (m % 10) :: r, ⟨by omega, by omega, rfl⟩, ⟨by omega, by omega, rfl⟩, by omega⟩

theorem btMonth_head {u : Chars} {M : Str} {m : Nat} (h : MonthText M m) {r : Str} (hr : NoDigit u r) :
    ∃ rest, btMonth (M ++ r) = (m, r) :: rest := by
  simp only [MonthText, adigit_eq] at h
  rcases h with ⟨h1, h2, rfl⟩ | ⟨h1, h2, rfl⟩
  · simp only [btMonth, btTwo, List.cons_append, List.nil_append, btRng_digitChar (show m < 10 by omega)]
    by_cases hm : m = 1
    · subst hm; simp [btRng_noDigit hr]
    · simp [show ¬ m ≤ 1 by omega, show ¬ m = 0 by omega, h1, h2]
  · simp only [btMonth, btTwo, List.cons_append, List.nil_append, btRng_digitChar (show m / 10 < 10 by omega)]
    by_cases hm : m < 10
    · have : m / 10 = 0 := by omega
      have h3 : m % 10 = m := by omega
      simp [this, h3, btRng_digitChar hm, h1, show m ≤ 9 by omega]
    · have : m / 10 = 1 := by omega
      simp [this, btRng_digitChar (show m % 10 < 10 by omega), show m % 10 ≤ 2 by omega]
      omega

theorem mem_btDay {u : Chars} {d : Nat} {s r : Str} : (d, r) ∈ btDay u s ↔ ∃ D, s = D ++ r ∧ DayText u D d := by
  have hsp : (d, r) ∈ btSpaced s ↔ 1 ≤ d ∧ d ≤ 9 ∧ s = ' ' :: digitChar d :: r := by
    unfold btSpaced
    split
    · rw [mem_btRng (by omega)]; simp
    · rename_i hs
      simp only [List.not_mem_nil, false_iff]
      rintro ⟨_, _, rfl⟩; exact hs _ rfl
  simp only [btDay, List.mem_append, hsp, mem_btTwo, mem_btRng (show (9 : Nat) ≤ 9 by omega), mem_btRng (show (2 : Nat) ≤ 9 by omega),
    mem_btRng (show (1 : Nat) ≤ 9 by omega), mem_btRng (show (0 : Nat) ≤ 9 by omega), mem_btRng (show (3 : Nat) ≤ 9 by omega),
    mem_btDigit, DayText, IsDigit, ← digitVal_iff, adigit_eq]
  constructor
  · rintro ((((⟨a, b, t, ⟨h1, h2, rfl⟩, ⟨h3, h4, rfl⟩, rfl⟩ | ⟨a, b, t, ⟨h1, h2, rfl⟩, ⟨c, h3, rfl⟩, rfl⟩) |
      ⟨a, b, t, ⟨h1, h2, rfl⟩, ⟨h3, h4, rfl⟩, rfl⟩) | ⟨h1, h2, rfl⟩) | ⟨h1, h2, rfl⟩)
    · refine ⟨[digitChar a, digitChar b], rfl, .inr ⟨by omega, by omega, digitChar b, ?_⟩⟩
      rw [show (a * 10 + b) / 10 = a by omega, show (a * 10 + b) % 10 = b by omega]
      exact ⟨rfl, digitVal_digitChar u b (by omega), fun _ => rfl⟩
    · have hb := digitVal_lt h3
      refine ⟨[digitChar a, c], rfl, .inr ⟨by omega, by omega, c, ?_⟩⟩
      rw [show (a * 10 + b) / 10 = a by omega, show (a * 10 + b) % 10 = b by omega]
      exact ⟨rfl, h3, fun _ => by omega⟩
    · refine ⟨[digitChar a, digitChar b], rfl, .inr ⟨by omega, by omega, digitChar b, ?_⟩⟩
      rw [show (a * 10 + b) / 10 = a by omega, show (a * 10 + b) % 10 = b by omega]
      exact ⟨rfl, digitVal_digitChar u b (by omega), fun _ => rfl⟩
    · exact ⟨[digitChar d], rfl, .inl ⟨h1, h2, .inl rfl⟩⟩
    · exact ⟨[' ', digitChar d], rfl, .inl ⟨h1, h2, .inr rfl⟩⟩
  · rintro ⟨D, rfl, (⟨h1, h2, (rfl | rfl)⟩ | ⟨h1, h2, c, rfl, h3, h4⟩)⟩
    · exact .inl (.inr ⟨h1, h2, rfl⟩)
    · exact .inr ⟨h1, h2, rfl⟩
    · left; left
      by_cases ha : d < 10
      · right
        exact ⟨0, d, digitChar d :: r, ⟨by omega, by omega, by rw [h4 (.inl ha), show d / 10 = 0 by omega, show d % 10 = d by omega]; rfl⟩,
          ⟨h1, by omega, rfl⟩, by omega⟩
      · left
        by_cases hb : 30 ≤ d
        · left
          exact ⟨3, d % 10, digitChar (d % 10) :: r, ⟨by omega, by omega, by rw [h4 (.inr hb), show d / 10 = 3 by omega]; rfl⟩,
            ⟨by omega, by omega, rfl⟩, by omega⟩
        · right
          exact ⟨d / 10, d % 10, c :: r, ⟨by omega, by omega, rfl⟩, ⟨c, h3, rfl⟩, by omega⟩

theorem btDay_head {u : Chars} {D : Str} {d : Nat} (h : DayText u D d) {r : Str} (hr : NoDigit u r) :
    ∃ rest, btDay u (D ++ r) = (d, r) :: rest := by
  simp only [DayText, IsDigit, ← digitVal_iff, adigit_eq] at h
  rcases h with ⟨h1, h2, (rfl | rfl)⟩ | ⟨h1, h2, c, rfl, h3, h4⟩
  · simp only [btDay, btTwo, List.cons_append, List.nil_append, btRng_digitChar (show d < 10 by omega)]
    have ha : ∀ (q : BT Nat), q r = [] → ∀ (P : Prop) [Decidable P],
        (if P then [(d, r)] else []).flatMap (fun x => (q x.2).map fun y => (x.1 * 10 + y.1, y.2)) = [] := by
      intro q hq P _; split <;> simp [hq]
    rw [ha _ (btRng_noDigit hr (by omega)), ha _ (btDigit_noDigit hr), ha _ (btRng_noDigit hr (by omega))]
    simp [h1, h2]
  · simp only [btDay, btTwo, btSpaced, List.cons_append, List.nil_append]
    have : ∀ lo hi, btRng lo hi (' ' :: digitChar d :: r) = [] := by
      intro lo hi; simp only [btRng]; rw [if_neg]
      show ¬ (48 + lo ≤ 32 ∧ _)
      omega
    simp only [this, List.flatMap_nil, List.nil_append, btRng_digitChar (show d < 10 by omega)]
    simp [h1, h2]
  · simp only [btDay, btTwo, List.cons_append, List.nil_append, btRng_digitChar (show d / 10 < 10 by omega)]
    by_cases ha : d < 10
    · have e1 : d / 10 = 0 := by omega
      have e2 : d % 10 = d := by omega
      rw [h4 (.inl ha), e1, e2]
      simp [btRng_digitChar ha, h1, show d ≤ 9 by omega]
    · by_cases hb : 30 ≤ d
      · have e1 : d / 10 = 3 := by omega
        rw [h4 (.inr hb), e1]
        simp [btRng_digitChar (show d % 10 < 10 by omega), show d % 10 ≤ 1 by omega]
        omega
      · simp [show ¬ (3 ≤ d / 10 ∧ d / 10 ≤ 3) by omega, show 1 ≤ d / 10 ∧ d / 10 ≤ 2 by omega, btDigit_cons h3]
        omega

theorem mem_btHour {u : Chars} {h : Nat} {s r : Str} : (h, r) ∈ btHour u s ↔ ∃ H, s = H ++ r ∧ HourText u H h := by
  simp only [btHour, List.mem_append, mem_btTwo, mem_btRng (show (2 : Nat) ≤ 9 by omega),
    mem_btRng (show (1 : Nat) ≤ 9 by omega), mem_btRng (show (3 : Nat) ≤ 9 by omega),
    mem_btDigit, HourText, IsDigit, ← digitVal_iff, adigit_eq]
  constructor
  · rintro ((⟨a, b, t, ⟨h1, h2, rfl⟩, ⟨h3, h4, rfl⟩, rfl⟩ | ⟨a, b, t, ⟨h1, h2, rfl⟩, ⟨c, h3, rfl⟩, rfl⟩) | ⟨c, h1, rfl⟩)
    · refine ⟨[digitChar a, digitChar b], rfl, .inr ⟨by omega, digitChar b, ?_⟩⟩
      rw [show (a * 10 + b) / 10 = a by omega, show (a * 10 + b) % 10 = b by omega]
      exact ⟨rfl, digitVal_digitChar u b (by omega), fun _ => rfl⟩
    · have hb := digitVal_lt h3
      refine ⟨[digitChar a, c], rfl, .inr ⟨by omega, c, ?_⟩⟩
      rw [show (a * 10 + b) / 10 = a by omega, show (a * 10 + b) % 10 = b by omega]
      exact ⟨rfl, h3, fun _ => by omega⟩
    · exact ⟨[c], rfl, .inl ⟨c, rfl, h1⟩⟩
  · rintro ⟨H, rfl, (⟨c, rfl, h1⟩ | ⟨h1, c, rfl, h3, h4⟩)⟩
    · exact .inr ⟨c, h1, rfl⟩
    · left
      by_cases ha : 20 ≤ h
      · left
        exact ⟨2, h % 10, digitChar (h % 10) :: r, ⟨by omega, by omega, by rw [h4 ha, show h / 10 = 2 by omega]; rfl⟩,
          ⟨by omega, by omega, rfl⟩, by omega⟩
      · right
        exact ⟨h / 10, h % 10, c :: r, ⟨by omega, by omega, rfl⟩, ⟨c, h3, rfl⟩, by omega⟩

theorem btTwo_noDigit {c : Char} {r : Str} {lo hi : Nat} {q : BT Nat} (hq : q r = []) :
    btTwo (btRng lo hi) q (c :: r) = [] := by
  simp only [btTwo, btRng]
  split <;> simp [hq]

theorem btHour_head {u : Chars} {H : Str} {h : Nat} (hh : HourText u H h) {r : Str} (hr : NoDigit u r) :
    ∃ rest, btHour u (H ++ r) = (h, r) :: rest := by
  simp only [HourText, IsDigit, ← digitVal_iff, adigit_eq] at hh
  rcases hh with ⟨c, rfl, h1⟩ | ⟨h1, c, rfl, h3, h4⟩
  · refine ⟨[], ?_⟩
    simp only [btHour, List.cons_append, List.nil_append, btTwo_noDigit (btRng_noDigit hr (show 3 ≤ 9 by omega)),
      btTwo_noDigit (btDigit_noDigit hr), btDigit_cons h1]
  · simp only [btHour, btTwo, List.cons_append, List.nil_append, btRng_digitChar (show h / 10 < 10 by omega)]
    by_cases ha : 20 ≤ h
    · have e1 : h / 10 = 2 := by omega
      rw [h4 ha, e1]
      simp [btRng_digitChar (show h % 10 < 10 by omega), show h % 10 ≤ 3 by omega]
      omega
    · simp [show ¬ (2 ≤ h / 10 ∧ h / 10 ≤ 2) by omega, show h / 10 ≤ 1 by omega, btDigit_cons h3]
      omega

theorem mem_btMinute {u : Chars} {m : Nat} {s r : Str} :
    (m, r) ∈ btMinute u s ↔ ∃ M, s = M ++ r ∧ MinuteText u M m := by
  simp only [btMinute, List.mem_append, mem_btTwo, mem_btRng (show (5 : Nat) ≤ 9 by omega),
    mem_btDigit, MinuteText, IsDigit, ← digitVal_iff, adigit_eq]
  constructor
  · rintro (⟨a, b, t, ⟨h1, h2, rfl⟩, ⟨c, h3, rfl⟩, rfl⟩ | ⟨c, h1, rfl⟩)
    · have hb := digitVal_lt h3
      refine ⟨[digitChar a, c], rfl, .inr ⟨by omega, c, ?_⟩⟩
      rw [show (a * 10 + b) / 10 = a by omega, show (a * 10 + b) % 10 = b by omega]
      exact ⟨rfl, h3⟩
    · exact ⟨[c], rfl, .inl ⟨c, rfl, h1⟩⟩
  · rintro ⟨H, rfl, (⟨c, rfl, h1⟩ | ⟨h1, c, rfl, h3⟩)⟩
    · exact .inr ⟨c, h1, rfl⟩
    · exact .inl ⟨m / 10, m % 10, c :: r, ⟨by omega, by omega, rfl⟩, ⟨c, h3, rfl⟩, by omega⟩

theorem btMinute_head {u : Chars} {H : Str} {h : Nat} (hh : MinuteText u H h) {r : Str} (hr : NoDigit u r) :
    ∃ rest, btMinute u (H ++ r) = (h, r) :: rest := by
  simp only [MinuteText, IsDigit, ← digitVal_iff, adigit_eq] at hh
  rcases hh with ⟨c, rfl, h1⟩ | ⟨h1, c, rfl, h3⟩
  · refine ⟨[], ?_⟩
    simp only [btMinute, List.cons_append, List.nil_append,
      btTwo_noDigit (btDigit_noDigit hr), btDigit_cons h1]
  · simp only [btMinute, btTwo, List.cons_append, List.nil_append, btRng_digitChar (show h / 10 < 10 by omega)]
    simp [show h / 10 ≤ 5 by omega, btDigit_cons h3]
    omega

/-- Seconds: as minutes, and the leap seconds 60 and 61 which are no time of day. -/
theorem mem_btSecond {u : Chars} {m : Nat} {s r : Str} (hm : m < 60) :
    (m, r) ∈ btSecond u s ↔ ∃ M, s = M ++ r ∧ MinuteText u M m := by
  rw [← mem_btMinute]
  simp only [btSecond, btMinute, List.mem_append]
  constructor
  · rintro ((h | h) | h)
    · rw [mem_btTwo] at h
      obtain ⟨a, b, t, h1, h2, rfl⟩ := h
      rw [mem_btRng (by omega)] at h1 h2
      omega
    · exact .inl h
    · exact .inr h
  · rintro (h | h)
    · exact .inl (.inr h)
    · exact .inr h

theorem btSecond_head {u : Chars} {H : Str} {h : Nat} (hh : MinuteText u H h) (hm : h < 60) {r : Str} (hr : NoDigit u r) :
    ∃ rest, btSecond u (H ++ r) = (h, r) :: rest := by
  obtain ⟨rest, hrest⟩ := btMinute_head hh hr
  have : btSecond u (H ++ r) = btTwo (btRng 6 6) (btRng 0 1) (H ++ r) ++ btMinute u (H ++ r) := by
    simp [btSecond, btMinute]
  rw [this, hrest]
  simp only [MinuteText, IsDigit, ← digitVal_iff, adigit_eq] at hh
  rcases hh with ⟨c, rfl, h1⟩ | ⟨h1, c, rfl, h3⟩
  · simp only [List.cons_append, List.nil_append, btTwo_noDigit (btRng_noDigit hr (show 1 ≤ 9 by omega))]
    exact ⟨rest, rfl⟩
  · simp only [List.cons_append, List.nil_append, btTwo, btRng_digitChar (show h / 10 < 10 by omega)]
    rw [if_neg (by omega)]
    exact ⟨rest, rfl⟩

theorem btLit_cons {c : Char} (r : Str) : btLit c (c :: r) = [((), r)] := by simp [btLit]

theorem mem_btLit {c : Char} (hc : asciiUpper c = false) {s r : Str} {x : Unit} : (x, r) ∈ btLit c s ↔ s = c :: r := by
  cases s with
  | nil => simp [btLit]
  | cons a t =>
    by_cases h : a = c
    · subst h; simp only [btLit, true_or, if_true, List.mem_singleton, Prod.mk.injEq, true_and, List.cons.injEq]; exact eq_comm
    · simp [btLit, h, hc]

/-- `T` and `Z` may also be given in lower case. -/
theorem mem_btLit_upper {c c' : Char} (hc : asciiUpper c = true) (hl : c'.toNat = c.toNat + 32) {s r : Str} {x : Unit} :
    (x, r) ∈ btLit c s ↔ s = c :: r ∨ s = c' :: r := by
  cases s with
  | nil => simp [btLit]
  | cons a t =>
    by_cases h : a = c
    · subst h
      have : a ≠ c' := by rintro rfl; omega
      simp only [btLit, true_or, if_true, List.mem_singleton, Prod.mk.injEq, true_and, List.cons.injEq, this, false_and, or_false]
      exact eq_comm
    · by_cases h' : a = c'
      · subst h'; simp only [btLit, hl, hc, h, false_or, and_self, if_true, List.mem_singleton, Prod.mk.injEq, true_and, List.cons.injEq, false_and]; exact eq_comm
      · have : a.toNat ≠ c.toNat + 32 := by
          rw [← hl]; intro hh; exact h' (Char.toNat_inj.1 hh)
        simp [btLit, h, h', this]

/-! ### Dates and times -/

theorem mem_btDate {u : Chars} {d : PDate} {s r : Str} :
    (d, r) ∈ btDate u s ↔ ∃ D, s = D ++ r ∧ DateText u D d := by
  simp only [btDate, List.mem_flatMap, List.mem_map, Prod.exists, Prod.mk.injEq, mem_btYear, mem_btMonth, mem_btDay,
    mem_btLit (show asciiUpper '-' = false from rfl), DateText]
  constructor
  · rintro ⟨y, _, ⟨Y, rfl, hy⟩, _, _, rfl, m, _, ⟨M, rfl, hm⟩, _, _, rfl, dd, _, ⟨D, rfl, hd⟩, rfl, rfl⟩
    exact ⟨Y ++ '-' :: (M ++ '-' :: D), by simp, Y, M, D, rfl, hy, hm, hd⟩
  · rintro ⟨_, rfl, Y, M, D, rfl, hy, hm, hd⟩
    refine ⟨d.year, _, ⟨Y, ?_, hy⟩, (), _, rfl, d.month, '-' :: (D ++ r), ⟨M, rfl, hm⟩, (), _, rfl, d.day, r, ⟨D, rfl, hd⟩, rfl, rfl⟩
    simp

theorem noDigit_cons {u : Chars} {c : Char} (h : digitVal u c = none) (r : Str) : NoDigit u (c :: r) := by
  intro x hx; simp only [List.head?_cons, Option.some.injEq] at hx; exact hx ▸ h

theorem noDigit_nil {u : Chars} : NoDigit u [] := by intro x hx; simp at hx

theorem btDate_head {u : Chars} {D : Str} {d : PDate} (h : DateText u D d) {r : Str} (hr : NoDigit u r) :
    ∃ rest, btDate u (D ++ r) = (d, r) :: rest := by
  obtain ⟨Y, M, D, rfl, hy, hm, hd⟩ := h
  have e : Y ++ '-' :: (M ++ '-' :: D) ++ r = Y ++ '-' :: (M ++ '-' :: (D ++ r)) := by simp
  rw [e]
  unfold btDate
  apply flatMap_head (btYear_head hy _)
  apply flatMap_head ⟨_, btLit_cons _⟩
  apply flatMap_head (btMonth_head (u := u) hm (noDigit_cons rfl _))
  apply flatMap_head ⟨_, btLit_cons _⟩
  exact map_head (btDay_head hd hr)

theorem mem_btTime {u : Chars} {t : PTime} {s r : Str} (ht : t.second < 60) :
    (t, r) ∈ btTime u s ↔ ∃ T, s = T ++ r ∧ TimeText u T t := by
  simp only [btTime, List.mem_flatMap, List.mem_map, Prod.exists, Prod.mk.injEq, mem_btHour, mem_btMinute,
    mem_btLit (show asciiUpper ':' = false from rfl), TimeText]
  constructor
  · rintro ⟨h, _, ⟨H, rfl, hh⟩, _, _, rfl, m, _, ⟨M, rfl, hm⟩, _, _, rfl, x, _, hs, rfl, rfl⟩
    rw [mem_btSecond ht] at hs
    obtain ⟨S, rfl, hs⟩ := hs
    exact ⟨H ++ ':' :: (M ++ ':' :: S), by simp, H, M, S, rfl, hh, hm, hs, rfl⟩
  · rintro ⟨_, rfl, H, M, S, rfl, hh, hm, hs, hmi⟩
    refine ⟨t.hour, _, ⟨H, ?_, hh⟩, (), _, rfl, t.minute, ':' :: (S ++ r), ⟨M, rfl, hm⟩, (), _, rfl, t.second, r,
      (mem_btSecond ht).2 ⟨S, rfl, hs⟩, ?_, rfl⟩
    · simp
    · rw [← hmi]

theorem btTime_head {u : Chars} {T : Str} {t : PTime} (h : TimeText u T t) (ht : t.second < 60) {r : Str}
    (hr : NoDigit u r) : ∃ rest, btTime u (T ++ r) = (t, r) :: rest := by
  obtain ⟨H, M, S, rfl, hh, hm, hs, hmi⟩ := h
  have e : H ++ ':' :: (M ++ ':' :: S) ++ r = H ++ ':' :: (M ++ ':' :: (S ++ r)) := by simp
  rw [e]
  have ht' : t = ⟨t.hour, t.minute, t.second, 0⟩ := by rw [← hmi]
  rw [ht']
  unfold btTime
  apply flatMap_head (btHour_head hh (noDigit_cons rfl _))
  apply flatMap_head ⟨_, btLit_cons _⟩
  apply flatMap_head (btMinute_head hm (noDigit_cons rfl _))
  apply flatMap_head ⟨_, btLit_cons _⟩
  exact map_head (btSecond_head hs ht hr)

theorem btWhole_eq_some {α : Type} {p : BT α} {s : Str} {a : α} (h : btWhole p s = some a) : (a, []) ∈ p s := by
  unfold btWhole at h
  split at h
  · rename_i b l heq; cases h; rw [heq]; exact List.mem_cons_self ..
  · simp at h

theorem btWhole_head {α : Type} {p : BT α} {s : Str} {a : α} (h : ∃ r, p s = (a, []) :: r) : btWhole p s = some a := by
  obtain ⟨r, h⟩ := h
  unfold btWhole; rw [h]

theorem daysInMonth_eq (y m : Nat) (h1 : 1 ≤ m) (h2 : m ≤ 12) : daysInMonth y m = monthLength y m := by
  have hl : isLeap y = true ↔ (4 ∣ y ∧ (¬ 100 ∣ y ∨ 400 ∣ y)) := by
    simp only [isLeap, Bool.and_eq_true, Bool.or_eq_true, decide_eq_true_eq, Nat.dvd_iff_mod_eq_zero, ne_eq, decide_not,
      Bool.not_eq_true', decide_eq_false_iff_not]
  match m, h1, h2 with
  | 2, _, _ => simp only [daysInMonth, monthLength, if_true, hl]
  | 1, _, _ => rfl | 3, _, _ => rfl | 4, _, _ => rfl | 5, _, _ => rfl | 6, _, _ => rfl | 7, _, _ => rfl
  | 8, _, _ => rfl | 9, _, _ => rfl | 10, _, _ => rfl | 11, _, _ => rfl | 12, _, _ => rfl
  | n + 13, _, h => omega

theorem monthLength_pos {y m d : Nat} (h1 : 1 ≤ d) (h : d ≤ monthLength y m) : 1 ≤ m ∧ m ≤ 12 := by
  match m with
  | 0 => simp [monthLength] at h; omega
  | 1 => omega | 2 => omega | 3 => omega | 4 => omega | 5 => omega | 6 => omega | 7 => omega | 8 => omega
  | 9 => omega | 10 => omega | 11 => omega | 12 => omega
  | n + 13 => simp [monthLength] at h; omega

theorem dateOk_iff (d : PDate) : dateOk d = true ↔ CalendarDate d := by
  simp only [dateOk, Bool.and_eq_true, decide_eq_true_eq, CalendarDate]
  constructor
  · rintro ⟨⟨⟨⟨⟨h1, h2⟩, h3⟩, h4⟩, h5⟩, h6⟩
    rw [daysInMonth_eq _ _ h3 h4] at h6
    exact ⟨h1, h2, h5, h6⟩
  · rintro ⟨h1, h2, h5, h6⟩
    obtain ⟨h3, h4⟩ := monthLength_pos h5 h6
    rw [← daysInMonth_eq _ _ h3 h4] at h6
    exact ⟨⟨⟨⟨⟨h1, h2⟩, h3⟩, h4⟩, h5⟩, h6⟩

theorem timeOk_iff (t : PTime) : timeOk t = true ↔ ClockTime t := by
  simp only [timeOk, Bool.and_eq_true, decide_eq_true_eq, ClockTime]
  omega

/-- Exactly the texts of the date grammar that denote an existing day are parsed. -/
theorem parseDate_iff (u : Chars) (s : Str) (d : PDate) :
    parseDate u s = some d ↔ DateText u s d ∧ CalendarDate d := by
  rw [← dateOk_iff]
  unfold parseDate
  constructor
  · intro h
    split at h
    · rename_i d' hd
      split at h
      · cases h
        obtain ⟨D, hD, ht⟩ := mem_btDate.1 (btWhole_eq_some hd)
        rw [List.append_nil] at hD; subst hD
        exact ⟨ht, ‹_›⟩
      · simp at h
    · simp at h
  · rintro ⟨h, hc⟩
    have := btDate_head h (r := []) noDigit_nil
    rw [List.append_nil] at this
    rw [btWhole_head this]
    simp [hc]

theorem parseTime_iff (u : Chars) (s : Str) (t : PTime) :
    parseTime u s = some t ↔ TimeText u s t ∧ ClockTime t := by
  rw [← timeOk_iff]
  unfold parseTime
  constructor
  · intro h
    split at h
    · rename_i d' hd
      split at h
      · cases h
        have hc : ClockTime t := (timeOk_iff t).1 ‹_›
        obtain ⟨D, hD, ht⟩ := (mem_btTime (by have := hc.2.2.1; omega)).1 (btWhole_eq_some hd)
        rw [List.append_nil] at hD; subst hD
        exact ⟨ht, ‹_›⟩
      · simp at h
    · simp at h
  · rintro ⟨h, hc⟩
    have hc' : ClockTime t := (timeOk_iff t).1 hc
    have := btTime_head h (by have := hc'.2.2.1; omega) (r := []) noDigit_nil
    rw [List.append_nil] at this
    rw [btWhole_head this]
    simp [hc]

theorem btLit_upper_head {c c' : Char} (hc : asciiUpper c = true) (hl : c'.toNat = c.toNat + 32) {x : Char} (hx : x = c ∨ x = c')
    (r : Str) : ∃ l, btLit c (x :: r) = ((), r) :: l := by
  refine ⟨[], ?_⟩
  rcases hx with rfl | rfl
  · exact btLit_cons _
  · simp [btLit, hl, hc]

theorem parseDateTime_iff (u : Chars) (s : Str) (d : PDateTime) :
    parseDateTime u s = some d ↔ DateTimeText u s d ∧ CalendarDate d.date ∧ ClockTime d.time := by
  rw [← dateOk_iff, ← timeOk_iff]
  unfold parseDateTime
  constructor
  · intro h
    split at h
    · rename_i d' hd
      split at h
      · cases h
        rename_i hok
        rw [Bool.and_eq_true] at hok
        refine ⟨?_, hok⟩
        have hc : ClockTime d.time := (timeOk_iff _).1 hok.2
        have hm := btWhole_eq_some hd
        simp only [btDateTime, List.mem_flatMap, List.mem_map, Prod.exists, Prod.mk.injEq, mem_btDate,
          mem_btLit_upper (show asciiUpper 'T' = true from rfl) (show 't'.toNat = 'T'.toNat + 32 from rfl),
          mem_btLit_upper (show asciiUpper 'Z' = true from rfl) (show 'z'.toNat = 'Z'.toNat + 32 from rfl)] at hm
        obtain ⟨dd, s1, ⟨D, rfl, hD⟩, _, s2, hT, tt, s3, ht, _, s4, hZ, rfl, rfl⟩ := hm
        rw [mem_btTime (by have := hc.2.2.1; simp only at this; omega)] at ht
        obtain ⟨T, rfl, ht⟩ := ht
        refine ⟨rfl, ?_⟩
        rcases hT with rfl | rfl <;> rcases hZ with rfl | rfl
        · exact ⟨D, T, 'T', 'Z', rfl, .inl rfl, .inl rfl, hD, ht⟩
        · exact ⟨D, T, 'T', 'z', rfl, .inl rfl, .inr rfl, hD, ht⟩
        · exact ⟨D, T, 't', 'Z', rfl, .inr rfl, .inl rfl, hD, ht⟩
        · exact ⟨D, T, 't', 'z', rfl, .inr rfl, .inr rfl, hD, ht⟩
      · simp at h
    · simp at h
  · rintro ⟨⟨hz, D, T, t, z, rfl, ht, hzz, hD, hT⟩, hd, hc⟩
    have hc' : ClockTime d.time := (timeOk_iff _).1 hc
    have ht' : digitVal u t = none := by rcases ht with rfl | rfl <;> rfl
    have hz' : digitVal u z = none := by rcases hzz with rfl | rfl <;> rfl
    have : ∃ r, btDateTime u (D ++ t :: (T ++ [z])) = (d, []) :: r := by
      have hd' : d = ⟨d.date, d.time, some .utc⟩ := by rw [← hz]
      rw [hd']
      unfold btDateTime
      apply flatMap_head (btDate_head hD (noDigit_cons ht' _))
      apply flatMap_head (btLit_upper_head rfl (show 't'.toNat = _ from rfl) ht _)
      apply flatMap_head (btTime_head hT (by have := hc'.2.2.1; omega) (noDigit_cons hz' _))
      exact map_head (btLit_upper_head rfl (show 'z'.toNat = _ from rfl) hzz _)
    rw [btWhole_head this]
    simp [hd, hc]

/-! ### Formatting -/

theorem padNat_two {n : Nat} (h : n < 100) : padNat 2 n = [adigit (n / 10), adigit (n % 10)] := by
  unfold padNat
  rw [natStr_step]
  by_cases h' : n < 10
  · simp only [h', if_true]
    rw [show n / 10 = 0 by omega, show n % 10 = n by omega]; rfl
  · simp only [h', if_false]
    rw [natStr_step, if_pos (by omega)]; rfl

theorem natStr_four {y : Nat} (h1 : 1000 ≤ y) (h2 : y ≤ 9999) :
    natStr y = [adigit (y / 1000), adigit (y / 100 % 10), adigit (y / 10 % 10), adigit (y % 10)] := by
  rw [natStr_step, if_neg (by omega), natStr_step, if_neg (by omega), natStr_step, if_neg (by omega), natStr_step,
    if_pos (by omega)]
  rw [show y / 10 / 10 = y / 100 by omega, show y / 100 / 10 = y / 1000 by omega]
  rfl

theorem yearStr_four {pad : Bool} {y : Nat} (h1 : pad = true ∨ 1000 ≤ y) (h2 : y ≤ 9999) :
    yearStr pad y = [adigit (y / 1000), adigit (y / 100 % 10), adigit (y / 10 % 10), adigit (y % 10)] := by
  have hbig : 1000 ≤ y → padNat 4 y = [adigit (y / 1000), adigit (y / 100 % 10), adigit (y / 10 % 10), adigit (y % 10)] := by
    intro h; unfold padNat; rw [natStr_four h h2]; rfl
  by_cases hy : 1000 ≤ y
  · unfold yearStr; split
    · exact hbig hy
    · exact natStr_four hy h2
  · have hp : pad = true := by rcases h1 with h | h; exact h; omega
    subst hp
    simp only [yearStr, if_true, padNat]
    have e3 : y / 1000 = 0 := by omega
    by_cases ha : y < 10
    · rw [natStr_step, if_pos ha, e3, show y / 100 % 10 = 0 by omega, show y / 10 % 10 = 0 by omega, show y % 10 = y by omega]; rfl
    · by_cases hb : y < 100
      · rw [natStr_step, if_neg ha, natStr_step, if_pos (by omega), e3, show y / 100 % 10 = 0 by omega, show y / 10 % 10 = y / 10 by omega]; rfl
      · rw [natStr_step, if_neg ha, natStr_step, if_neg (by omega), natStr_step, if_pos (by omega), e3,
          show y / 10 / 10 = y / 100 by omega, show y / 100 % 10 = y / 100 by omega]; rfl

theorem dateStr_iso {pad : Bool} {d : PDate} (hd : CalendarDate d) (hy : pad = true ∨ 1000 ≤ d.year) :
    dateStr pad d = isoDate d := by
  obtain ⟨h1, h2, h3, h4⟩ := hd
  obtain ⟨h5, h6⟩ := monthLength_pos h3 h4
  have h7 : monthLength d.year d.month ≤ 31 := by
    rw [← daysInMonth_eq _ _ h5 h6]; unfold daysInMonth; split; split <;> omega; split <;> omega
  unfold dateStr
  rw [yearStr_four hy h2, padNat_two (by omega), padNat_two (by omega)]
  rfl

theorem timeStr_iso {t : PTime} (ht : ClockTime t) : timeStr t = isoTime t := by
  obtain ⟨h1, h2, h3, h4⟩ := ht
  unfold timeStr
  rw [padNat_two (by omega), padNat_two (by omega), padNat_two (by omega)]
  rfl

theorem isDigit_adigit (u : Chars) {n : Nat} (h : n < 10) : IsDigit u (adigit n) n := .of (digitVal_digitChar u n h)

theorem dateText_iso (u : Chars) {d : PDate} (hd : CalendarDate d) : DateText u (isoDate d) d := by
  obtain ⟨h1, h2, h3, h4⟩ := hd
  obtain ⟨h5, h6⟩ := monthLength_pos h3 h4
  have h7 : monthLength d.year d.month ≤ 31 := by
    rw [← daysInMonth_eq _ _ h5 h6]; unfold daysInMonth; split; split <;> omega; split <;> omega
  refine ⟨[adigit (d.year / 1000), adigit (d.year / 100 % 10), adigit (d.year / 10 % 10), adigit (d.year % 10)],
    [adigit (d.month / 10), adigit (d.month % 10)], [adigit (d.day / 10), adigit (d.day % 10)], rfl, ?_, ?_, ?_⟩
  · exact ⟨_, _, _, _, _, _, _, _, rfl, isDigit_adigit u (by omega), isDigit_adigit u (by omega), isDigit_adigit u (by omega),
      isDigit_adigit u (by omega), by omega⟩
  · exact .inr ⟨h5, h6, rfl⟩
  · exact .inr ⟨h3, by omega, _, rfl, isDigit_adigit u (by omega), fun _ => rfl⟩

theorem timeText_iso (u : Chars) {t : PTime} (ht : ClockTime t) : TimeText u (isoTime t) { t with micro := 0 } := by
  obtain ⟨h1, h2, h3, h4⟩ := ht
  refine ⟨[adigit (t.hour / 10), adigit (t.hour % 10)], [adigit (t.minute / 10), adigit (t.minute % 10)],
    [adigit (t.second / 10), adigit (t.second % 10)], rfl, ?_, ?_, ?_, rfl⟩
  · exact .inr ⟨by simp only; omega, _, rfl, isDigit_adigit u (by omega), fun _ => rfl⟩
  · exact .inr ⟨by simp only; omega, _, rfl, isDigit_adigit u (by omega)⟩
  · exact .inr ⟨by simp only; omega, _, rfl, isDigit_adigit u (by omega)⟩

end Scheme
