import Verif.Props.Decimal
import Verif.Props.Integer
import Verif.Spec.DecRead

/-! C19: everything a Decimal reads. -/

namespace Scheme

theorem spanDigits_spec (u : Chars) (s : Str) :
    ∃ a, s = a ++ (spanDigits u s).2 ∧ DigitRun u a (spanDigits u s).1 ∧
      ∀ c r, (spanDigits u s).2 = c :: r → digitVal u c = none := by
  induction s with
  | nil => exact ⟨[], rfl, rfl, fun c r h => nomatch h⟩
  | cons c s ih =>
    unfold spanDigits
    cases h : digitVal u c with
    | none =>
      refine ⟨[], rfl, rfl, ?_⟩
      intro c' r' h'
      cases h'; exact h
    | some d =>
      obtain ⟨a, h1, h2, h3⟩ := ih
      refine ⟨c :: a, ?_, ?_, h3⟩
      · simp only [List.cons_append]; rw [← h1]
      · simp only [DigitRun, List.map_cons, h] at h2 ⊢; rw [h2]

theorem spanDigits_run (u : Chars) (a : Str) (ds : List Nat) (h : DigitRun u a ds) (x : Str)
    (hx : ∀ c r, x = c :: r → digitVal u c = none) : spanDigits u (a ++ x) = (ds, x) := by
  induction a generalizing ds with
  | nil =>
    cases ds with
    | cons d ds => cases h
    | nil =>
      cases x with
      | nil => rfl
      | cons c r => simp only [List.nil_append, spanDigits, hx c r rfl]
  | cons c a ih =>
    cases ds with
    | nil => cases h
    | cons d ds =>
      simp only [DigitRun, List.map_cons, List.cons.injEq] at h
      simp only [List.cons_append, spanDigits, h.1, ih ds h.2]

theorem digitRun_nil {u : Chars} {ds : List Nat} (h : DigitRun u [] ds) : ds = [] := by
  cases ds with
  | nil => rfl
  | cons d ds => cases h

theorem digitRun_head {u : Chars} {c : Char} {s : Str} {ds : List Nat} (h : DigitRun u (c :: s) ds) :
    ∃ d ds', ds = d :: ds' ∧ digitVal u c = some d := by
  cases ds with
  | nil => cases h
  | cons d ds =>
    simp only [DigitRun, List.map_cons, List.cons.injEq] at h
    exact ⟨d, ds, rfl, h.1⟩

theorem expDigits_iff (u : Chars) (s : Str) (m : Nat) :
    expDigits u s = some m ↔ ∃ ds, DigitRun u s ds ∧ ds ≠ [] ∧ m = ds.foldl (fun a d => a * 10 + d) 0 := by
  obtain ⟨a, h1, h2, h3⟩ := spanDigits_spec u s
  constructor
  · intro h
    unfold expDigits at h
    split at h
    · cases h
    · rename_i ds hne heq
      cases h
      rw [heq] at h1 h2
      simp only [List.append_nil] at h1
      subst h1
      refine ⟨ds, h2, ?_, rfl⟩
      intro hd; subst hd
      exact hne rfl
    · cases h
  · rintro ⟨ds, h4, h5, rfl⟩
    have := spanDigits_run u s ds h4 [] (fun c r h => nomatch h)
    rw [List.append_nil] at this
    unfold expDigits
    rw [this]
    cases ds with
    | nil => exact absurd rfl h5
    | cons d ds => rfl

theorem decTail_iff (u : Chars) (neg : Bool) (co fl : Nat) (x : Str) (d : Dec) :
    decTail u neg co fl x = some d ↔ ∃ e, ExpRead u x e ∧ d = .fin neg co (e - fl) := by
  constructor
  · intro h
    cases x with
    | nil =>
      cases h
      exact ⟨0, .absent, by simp⟩
    | cons c r =>
      simp only [decTail] at h
      by_cases hc : c = 'e' ∨ c = 'E'
      · rw [if_pos hc] at h
        simp only [Option.map_eq_some_iff] at h
        obtain ⟨e, h1, rfl⟩ := h
        refine ⟨e, ?_, rfl⟩
        unfold parseExp at h1
        split at h1
        · obtain ⟨m, h2, rfl⟩ := map_some h1
          obtain ⟨ds, h3, h4, rfl⟩ := (expDigits_iff ..).1 h2
          exact .minus hc.symm h3 h4
        · obtain ⟨m, h2, rfl⟩ := map_some h1
          obtain ⟨ds, h3, h4, rfl⟩ := (expDigits_iff ..).1 h2
          exact .plus hc.symm h3 h4
        · obtain ⟨m, h2, rfl⟩ := map_some h1
          obtain ⟨ds, h3, h4, rfl⟩ := (expDigits_iff ..).1 h2
          exact .bare hc.symm h3 h4
      · rw [if_neg hc] at h; cases h
  · rintro ⟨e, h, rfl⟩
    cases h with
    | absent => simp [decTail]
    | @bare m s ds hm h1 h2 =>
      have h3 := (expDigits_iff u s _).2 ⟨ds, h1, h2, rfl⟩
      simp only [decTail]
      rw [if_pos hm.symm]
      have : parseExp u s = some ((ds.foldl (fun a d => a * 10 + d) 0 : Nat) : Int) := by
        unfold parseExp
        cases s with
        | nil => exact absurd (digitRun_nil h1) h2
        | cons c s =>
          obtain ⟨d, _, _, hd⟩ := digitRun_head h1
          split
          · rename_i heq; cases heq; cases hd
          · rename_i heq; cases heq; cases hd
          · rw [h3]; rfl
      rw [this]; rfl
    | @plus m s ds hm h1 h2 =>
      have h3 := (expDigits_iff u s _).2 ⟨ds, h1, h2, rfl⟩
      simp only [decTail]
      rw [if_pos hm.symm]
      simp only [parseExp, h3]; rfl
    | @minus m s ds hm h1 h2 =>
      have h3 := (expDigits_iff u s _).2 ⟨ds, h1, h2, rfl⟩
      simp only [decTail]
      rw [if_pos hm.symm]
      simp only [parseExp, h3]; rfl

theorem expRead_head {u : Chars} {x : Str} {e : Int} (h : ExpRead u x e) : ∀ c r, x = c :: r → digitVal u c = none ∧ c ≠ '.' := by
  have key : ∀ m : Char, (m = 'E' ∨ m = 'e') → digitVal u m = none ∧ m ≠ '.' := by
    rintro m (rfl | rfl) <;> exact ⟨rfl, by decide⟩
  intro c r hx
  cases h with
  | absent => cases hx
  | bare hm => cases hx; exact key _ hm
  | plus hm => cases hx; exact key _ hm
  | minus hm => cases hx; exact key _ hm

theorem lower_dot (u : Chars) (r : Str) : ∃ t, lower u ('.' :: r) = '.' :: t := ⟨_, rfl⟩

theorem parseDecSpecial_iff (u : Chars) (neg : Bool) (t : Str) (d : Dec) :
    parseDecSpecial u neg t = some d ↔ ((lower u t = c!"inf" ∨ lower u t = c!"infinity") ∧ d = .inf neg) ∨
      (∃ p ds, (lower u t = c!"nan" ++ p ∨ lower u t = c!"snan" ++ p) ∧ DigitRun u p ds) ∧ d = .nan := by
  have run : ∀ p : Str, (∃ ds, spanDigits u p = (ds, [])) ↔ ∃ ds, DigitRun u p ds := by
    intro p
    constructor
    · rintro ⟨ds, h⟩
      obtain ⟨a, h1, h2, _⟩ := spanDigits_spec u p
      rw [h] at h1 h2
      simp only [List.append_nil] at h1
      exact ⟨ds, h1 ▸ h2⟩
    · rintro ⟨ds, h⟩
      have := spanDigits_run u p ds h [] (fun c r h => nomatch h)
      rw [List.append_nil] at this
      exact ⟨ds, this⟩
  unfold parseDecSpecial
  generalize lower u t = l
  simp only
  by_cases hi : l = c!"inf" ∨ l = c!"infinity"
  · rw [if_pos hi]
    simp only [hi, true_and, Option.some.injEq]
    constructor
    · intro h; exact .inl h.symm
    · rintro (h | ⟨⟨p, ds, h, _⟩, _⟩)
      · exact h.symm
      · rcases hi with rfl | rfl <;> rcases h with h | h <;> cases h
  · rw [if_neg hi]
    simp only [hi, false_and, false_or]
    have key : ∀ l' : Str, (if l'.take 3 = c!"nan" then
        (match spanDigits u (l'.drop 3) with
          | (_, []) => some Dec.nan
          | _ => none) else none) = some d ↔ (∃ p ds, l' = c!"nan" ++ p ∧ DigitRun u p ds) ∧ d = .nan := by
      intro l'
      constructor
      · intro h
        by_cases h3 : l'.take 3 = c!"nan"
        · rw [if_pos h3] at h
          split at h
          · rename_i ds heq
            cases h
            obtain ⟨ds', hr⟩ := (run _).1 ⟨_, heq⟩
            exact ⟨⟨_, ds', by rw [← h3, List.take_append_drop], hr⟩, rfl⟩
          · cases h
        · rw [if_neg h3] at h; cases h
      · rintro ⟨⟨p, ds, rfl, hr⟩, rfl⟩
        obtain ⟨ds', h⟩ := (run p).2 ⟨ds, hr⟩
        rw [if_pos (by rfl)]
        simp only [List.cons_append, List.nil_append, List.drop_succ_cons, List.drop_zero, h]
    refine Iff.trans (key _) ?_
    refine and_congr_left fun _ => ?_
    constructor
    · rintro ⟨p, ds, h, hr⟩
      refine ⟨p, ds, ?_, hr⟩
      split at h
      · rename_i hs
        cases l with
        | nil => cases hs
        | cons c l => cases hs; exact .inr (congrArg ('s' :: ·) h)
      · exact .inl h
    · rintro ⟨p, ds, rfl | rfl, hr⟩
      · exact ⟨p, ds, rfl, hr⟩
      · exact ⟨p, ds, rfl, hr⟩

theorem parseDecBody_iff (u : Chars) (neg : Bool) (t : Str) (d : Dec) : parseDecBody u neg t = some d ↔ DecBody u neg t d := by
  constructor
  · intro h
    obtain ⟨a, h1, h2, h3⟩ := spanDigits_spec u t
    unfold parseDecBody at h
    generalize spanDigits u t = p at h h1 h2 h3
    obtain ⟨ds, rest⟩ := p
    simp only at h h1 h2 h3
    split at h
    · rename_i hemp
      simp only [Bool.and_eq_true, List.isEmpty_iff] at hemp
      have hd : ∀ c r, t = c :: r → digitVal u c = none := by
        rintro c r rfl
        cases a with
        | nil => exact h3 c r h1.symm
        | cons x a =>
          obtain ⟨_, _, he, _⟩ := digitRun_head h2
          rw [he] at hemp; exact absurd hemp.1 (by simp)
      rcases (parseDecSpecial_iff ..).1 h with ⟨h4, rfl⟩ | ⟨⟨p, ds, h4, h5⟩, rfl⟩
      · exact .infinite hd h4
      · exact .nan hd h4 h5
    · rename_i hemp
      obtain ⟨e, he, rfl⟩ := (decTail_iff ..).1 h
      subst h1
      cases rest with
      | nil =>
        simp only [decFrac, List.isEmpty_nil, Bool.and_true, List.isEmpty_iff] at hemp he
        simp only [decFrac, List.append_nil, List.length_nil, Int.natCast_zero, Int.sub_zero]
        have := DecBody.whole (neg := neg) h2 hemp he
        rwa [List.append_nil] at this
      | cons c r =>
        by_cases hc : c = '.'
        · subst hc
          obtain ⟨b, h4, h5, _⟩ := spanDigits_spec u r
          simp only [decFrac] at hemp he ⊢
          have hne : ds ≠ [] ∨ (spanDigits u r).1 ≠ [] := by
            by_cases hds : ds = []
            · refine .inr fun h6 => hemp ?_
              simp [hds, h6]
            · exact .inl hds
          have := DecBody.pointed (neg := neg) h2 h5 hne he
          rw [← h4] at this
          exact this
        · have hf : decFrac u (c :: r) = ([], c :: r) := by
            unfold decFrac
            split
            · rename_i heq; cases heq; exact absurd rfl hc
            · rfl
          rw [hf] at hemp he ⊢
          simp only [List.isEmpty_nil, Bool.and_true, List.isEmpty_iff] at hemp
          simp only [List.append_nil, List.length_nil, Int.natCast_zero, Int.sub_zero]
          exact DecBody.whole h2 hemp he
  · intro h
    have special : (∀ c r, t = c :: r → digitVal u c = none) → (∀ r, t ≠ '.' :: r) →
        parseDecBody u neg t = parseDecSpecial u neg t := by
      intro h1 h2
      have h3 : spanDigits u t = ([], t) := spanDigits_run u [] [] rfl t h1
      unfold parseDecBody
      rw [h3]
      have h4 : decFrac u t = ([], t) := by
        unfold decFrac
        split
        · exact absurd rfl (h2 _)
        · rfl
      simp only [h4, List.isEmpty_nil, Bool.and_self, if_true]
    cases h with
    | @whole a ds x e h1 h2 h3 =>
      have hx := expRead_head h3
      have hs := spanDigits_run u a ds h1 x fun c r h => (hx c r h).1
      have hf : decFrac u x = ([], x) := by
        unfold decFrac
        split
        · exact absurd rfl (hx _ _ rfl).2
        · rfl
      unfold parseDecBody
      rw [hs]
      simp only [hf, List.isEmpty_nil, Bool.and_true, List.isEmpty_iff, h2, if_false, List.append_nil, List.length_nil]
      rw [(decTail_iff ..).2 ⟨e, h3, rfl⟩]
      simp [digitsNat]
    | @pointed a b ds fs x e h1 h2 h3 h4 =>
      have hx := expRead_head h4
      have hs := spanDigits_run u a ds h1 ('.' :: (b ++ x)) (by rintro c r ⟨⟩; rfl)
      have hf : decFrac u ('.' :: (b ++ x)) = (fs, x) := spanDigits_run u b fs h2 x fun c r h => (hx c r h).1
      unfold parseDecBody
      rw [hs]
      simp only [hf]
      rw [if_neg (by rcases h3 with h | h <;> simp [h])]
      exact (decTail_iff ..).2 ⟨e, h4, rfl⟩
    | infinite h1 h2 =>
      rw [special h1 (by rintro r rfl; rcases h2 with h | h <;> cases h)]
      exact (parseDecSpecial_iff ..).2 (.inl ⟨h2, rfl⟩)
    | nan h1 h2 h3 =>
      rw [special h1 (by rintro r rfl; rcases h2 with h | h <;> cases h)]
      exact (parseDecSpecial_iff ..).2 (.inr ⟨⟨_, _, h2, h3⟩, rfl⟩)

theorem decBody_head {u : Chars} {neg : Bool} {c : Char} {r : Str} {d : Dec} (h : DecBody u neg (c :: r) d) : c ≠ '-' ∧ c ≠ '+' := by
  have dig : ∀ {d}, digitVal u c = some d → c ≠ '-' ∧ c ≠ '+' := by
    intro d h; constructor <;> rintro rfl <;> cases h
  generalize ht : c :: r = t at h
  cases h with
  | @whole a ds x e h1 h2 h3 =>
    cases a with
    | nil => exact absurd (digitRun_nil h1) h2
    | cons y a =>
      cases ht
      obtain ⟨_, _, _, h⟩ := digitRun_head h1
      exact dig h
  | @pointed a b ds fs x e h1 h2 h3 h4 =>
    cases a with
    | nil => cases ht; exact ⟨by decide, by decide⟩
    | cons y a =>
      cases ht
      obtain ⟨_, _, _, h⟩ := digitRun_head h1
      exact dig h
  | infinite h1 h2 =>
    subst ht
    constructor <;> rintro rfl <;> rcases h2 with h | h <;> cases h
  | nan h1 h2 h3 =>
    subst ht
    constructor <;> rintro rfl <;> rcases h2 with h | h <;> cases h

theorem parseDec_iff (u : Chars) (s : Str) (d : Dec) : parseDec u s = some d ↔ DecRead u s d := by
  have hs : ∀ t, strip u s = t ↔ Stripped (isSpace u) s t := fun t => stripBy_eq_iff
  constructor
  · intro h
    unfold parseDec at h
    refine ⟨_, (hs _).1 rfl, ?_⟩
    split at h
    · rename_i r heq; exact ⟨true, ['-'], r, heq, .inl ⟨rfl, rfl⟩, (parseDecBody_iff ..).1 h⟩
    · rename_i r heq; exact ⟨false, ['+'], r, heq, .inr ⟨rfl, .inr rfl⟩, (parseDecBody_iff ..).1 h⟩
    · exact ⟨false, [], _, rfl, .inr ⟨rfl, .inl rfl⟩, (parseDecBody_iff ..).1 h⟩
  · rintro ⟨t, h1, neg, sign, body, h2, h3, h4⟩
    have h5 := (parseDecBody_iff ..).2 h4
    unfold parseDec
    rw [(hs t).2 h1, h2]
    rcases h3 with ⟨rfl, rfl⟩ | ⟨rfl, rfl | rfl⟩
    · exact h5
    · rw [List.nil_append]
      split
      · exact absurd rfl (decBody_head h4).1
      · exact absurd rfl (decBody_head h4).2
      · exact h5
    · exact h5

theorem negSucc_neg (n : Nat) : Dec.fin true (n + 1) 0 = .fin (decide (Int.negSucc n < 0)) (Int.negSucc n).natAbs 0 := by
  rw [decide_eq_true (Int.negSucc_lt_zero n)]; rfl

theorem toDec_iff (env : Env) (v : Val) (d : Dec) : toDec env v = some d ↔ DecOf env v d := by
  constructor
  · intro h
    unfold toDec at h
    split at h
    · cases h; exact .decimal
    · rename_i i
      cases i with
      | ofNat n => cases h; exact .natural
      | negSucc n =>
        cases h
        have := DecOf.negative (env := env) (n := n)
        rw [negSucc_neg] at this
        exact this
    · rename_i b
      cases b <;> cases h
      · exact .false
      · exact .true
    · cases h; exact .float
    · exact .text ((parseDec_iff ..).1 h)
    · exact .tuple h
    · exact .list h
    · cases h
  · intro h
    cases h with
    | text h => exact (parseDec_iff ..).2 h
    | tuple h => exact h
    | list h => exact h
    | natural => rfl
    | @negative n => exact congrArg some (negSucc_neg n).symm
    | _ => rfl

/-- C19. Serialized values: accepted iff `Decimal()` makes a decimal of them that is within the bounds and equal to the
constant, if there is one.  Booleans are read as 0 and 1, though an Integer rejects them (C15). -/
theorem C19_read (env : Env) (n : Nat) (c : Common) (mn mx : Option Dec) (hpre : c.pre = none)
    (v w : Val) (hv : v ≠ .none) (anc : List Str) (ha : anc ≠ []) :
    process env (n + 1) (.leaf c (.decimal mn mx)) v .inbound true anc = .ok w ↔
      ∃ d, DecOf env v d ∧ w = .decimal d ∧ ConstOk c w ∧ (∀ m, mn = some m → DecLe m d) ∧ (∀ m, mx = some m → DecLe d m) := by
  rw [process_leaf_in (NoPre.mk' hpre (by simp)) (NotNull.mk' hv (by simp)) ha]
  simp only [unserializeLeaf, ← toDec_iff]
  cases h : toDec env v with
  | none => simp only [except_bind_error, reduceCtorEq, false_and, exists_false]
  | some x =>
    simp only [except_bind_ok, except_bind_eq_ok, checkConst_eq_ok, validate_decimal, Option.some.injEq]
    constructor
    · rintro ⟨a, ⟨rfl, h1⟩, rfl, d, h2, h3⟩; cases h2; exact ⟨_, rfl, rfl, h1, h3⟩
    · rintro ⟨i, rfl, rfl, h3, h4⟩; exact ⟨_, ⟨rfl, h3⟩, rfl, _, rfl, h4⟩

example : process Ex.env 1 (.leaf {} (.decimal none none)) (.str c!" 1_2.50e+3") .inbound true [c!"d"] =
    .ok (.decimal (.fin false 1250 1)) := rfl
example : process Ex.env 1 (.leaf {} (.decimal none none)) (.bool true) .inbound true [c!"d"] =
    .ok (.decimal (.fin false 1 0)) := rfl

end Scheme
