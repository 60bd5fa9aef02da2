import Verif.Lemmas.Leaf
import Verif.Lemmas.Str
import Verif.Spec.IntText
import Verif.Lemmas.Chars
import Verif.Spec.Examples

/-! C15: integers. -/

namespace Scheme

theorem validate_integer {env : Env} {f : Field} {mn mx : Option Int} {v w : Val} {anc : List Str} :
    validateLeaf env f (.integer mn mx) v anc = .ok w ↔
      ∃ i : Int, v = .int i ∧ w = v ∧ Within (· ≤ ·) mn mx i := by
  unfold validateLeaf Within
  cases v with
  | int i =>
    simp only [Val.int.injEq]
    have e1 := violates_false (fun m => decide (i < m)) mn
    have e2 := violates_false (fun m => decide (i > m)) mx
    cases h1 : violates (fun m => decide (i < m)) mn
    · cases h2 : violates (fun m => decide (i > m)) mx
      · have h1' := e1.1 h1
        have h2' := e2.1 h2
        simp only [Bool.false_eq_true, if_false, Except.ok.injEq]
        constructor
        · rintro rfl
          exact ⟨i, rfl, rfl, fun m hm => by simpa using h1' m hm, fun m hm => by simpa using h2' m hm⟩
        · rintro ⟨_, _, rfl, _⟩; rfl
      · simp only [if_true, Bool.false_eq_true, if_false, reduceCtorEq, false_iff]
        rintro ⟨j, rfl, _, _, h⟩
        have : violates (fun m => decide (i > m)) mx = false :=
          e2.2 fun m hm => by have := h m hm; simpa using this
        rw [h2] at this; simp at this
    · simp only [if_true, reduceCtorEq, false_iff]
      rintro ⟨j, rfl, _, h, _⟩
      have : violates (fun m => decide (i < m)) mn = false :=
        e1.2 fun m hm => by have := h m hm; simpa using this
      rw [h1] at this; simp at this
  | _ => simp

/-- C15. Native values: accepted iff an `int` (not a `bool`) within the inclusive bounds and equal to the
constant if there is one; returned unchanged. -/
theorem C15_native_iff (env : Env) (n : Nat) (c : Common) (mn mx : Option Int) (hpre : c.pre = none)
    (v w : Val) (hv : v ≠ .none) (ph : Phase) (anc : List Str) (ha : anc ≠ []) :
    process env (n + 1) (.leaf c (.integer mn mx)) v ph false anc = .ok w ↔
      ∃ i : Int, v = .int i ∧ w = v ∧ ConstOk c v ∧ (∀ m, mn = some m → m ≤ i) ∧ (∀ m, mx = some m → i ≤ m) := by
  rw [process_leaf_native (NoPre.mk' hpre (by simp)) (NotNull.mk' hv (by simp)) ha, except_bind_eq_ok]
  simp only [checkConst_eq_ok, validate_integer, Within]
  constructor
  · rintro ⟨a, ⟨rfl, h1⟩, i, rfl, h2, h3⟩; exact ⟨i, rfl, h2, h1, h3⟩
  · rintro ⟨i, h1, h2, h3, h4⟩; exact ⟨v, ⟨rfl, h3⟩, i, h1, h2, h4⟩

example : process Ex.env 1 (.leaf { name := some c!"n" } (.integer (some 2) (some 5))) (.int 5) .inbound false [] =
    .ok (.int 5) := rfl

/-- C15. Serialized output is the integer itself. -/
theorem C15_serialize (env : Env) (n : Nat) (c : Common) (mn mx : Option Int) (hpre : c.pre = none)
    (v : Val) (hv : v ≠ .none) (anc : List Str) (ha : anc ≠ []) :
    process env (n + 1) (.leaf c (.integer mn mx)) v .outbound true anc =
      process env (n + 1) (.leaf c (.integer mn mx)) v .inbound false anc := by
  rw [process_leaf_out' (NoPre.mk' hpre (by simp)) (NotNull.mk' hv (by simp)) ha]
  cases process env (n + 1) (.leaf c (.integer mn mx)) v .inbound false anc <;> rfl

theorem parseInt_text (u : Chars) (ds : List Nat) (hne : ds ≠ []) (hd : ∀ d ∈ ds, d < 10)
    (a b : Str) (ha : ∀ c ∈ a, isSpace u c = true) (hb : ∀ c ∈ b, isSpace u c = true) :
    parseInt u (a ++ ds.map digitChar ++ b) = some (digitsNat ds : Int) ∧
    parseInt u (a ++ '+' :: ds.map digitChar ++ b) = some (digitsNat ds : Int) ∧
    parseInt u (a ++ '-' :: ds.map digitChar ++ b) = some (-(digitsNat ds : Int)) := by
  have hends := digits_ends u hd
  have hlast : ∀ (x : Char) c, (x :: ds.map digitChar).getLast? = some c → isSpace u c = false := by
    intro x c hc
    rw [List.getLast?_cons] at hc
    cases hl : (ds.map digitChar).getLast? with
    | none => simp [List.getLast?_eq_none_iff, hne] at hl
    | some y => rw [hl] at hc; simp only [Option.getD_some, Option.some.injEq] at hc; subst hc; exact hends.2 _ hl
  have hp := parseDigits_digits u ds hne hd
  refine ⟨?_, ?_, ?_⟩
  · rw [parseInt, strip, stripBy_eq_of ⟨a, b, rfl, ha, hb, hends.1, hends.2⟩]
    cases ds with
    | nil => exact absurd rfl hne
    | cons d r =>
      have h1 : digitChar d ≠ '-' := digitChar_ne (hd d (List.mem_cons_self ..)) (by decide)
      have h2 : digitChar d ≠ '+' := digitChar_ne (hd d (List.mem_cons_self ..)) (by decide)
      rw [List.map_cons] at hp ⊢
      split
      · rename_i heq; simp only [List.cons.injEq] at heq; exact absurd heq.1 h1
      · rename_i heq; simp only [List.cons.injEq] at heq; exact absurd heq.1 h2
      · rw [hp]; rfl
  · rw [parseInt, strip, stripBy_eq_of ⟨a, b, rfl, ha, hb, by simp only [List.head?_cons, Option.some.injEq]; rintro _ rfl; rfl, hlast _⟩]
    simp only [hp]; rfl
  · rw [parseInt, strip, stripBy_eq_of ⟨a, b, rfl, ha, hb, by simp only [List.head?_cons, Option.some.injEq]; rintro _ rfl; rfl, hlast _⟩]
    simp only [hp]; rfl

/-- C15. Serialized decimal text, with any whitespace around and an optional sign, is treated exactly as
the integer it spells (leading zeros allowed). -/
theorem C15_text (env : Env) (n : Nat) (c : Common) (mn mx : Option Int) (hpre : c.pre = none)
    (ds : List Nat) (hne : ds ≠ []) (hd : ∀ d ∈ ds, d < 10) (a b : Str)
    (hsa : ∀ c ∈ a, isSpace env.u c = true) (hsb : ∀ c ∈ b, isSpace env.u c = true)
    (sign : Option Bool) (ph : Phase) (anc : List Str) (ha : anc ≠ []) :
    let digits : Str := ds.map fun d => Char.ofNat (48 + d)
    let value : Nat := ds.foldl (fun acc d => acc * 10 + d) 0
    process env (n + 1) (.leaf c (.integer mn mx))
        (.str (a ++ (match sign with | none => [] | some true => ['-'] | some false => ['+']) ++ digits ++ b)) .inbound true anc =
      process env (n + 1) (.leaf c (.integer mn mx)) (.int (if sign = some true then -(value : Int) else value)) ph false anc := by
  intro digits value
  have hval : value = digitsNat ds := rfl
  have hdig : digits = ds.map digitChar := rfl
  obtain ⟨h1, h2, h3⟩ := parseInt_text env.u ds hne hd a b hsa hsb
  apply process_leaf_in' (NoPre.mk' hpre (by simp)) (NotNull.mk' (by simp) (by simp)) ha _ (NotNull.mk' (by simp) (by simp))
  simp only [unserializeLeaf, toInt]
  rw [hval, hdig]
  cases sign with
  | none => simp only [List.append_nil, h1]; rfl
  | some s =>
    cases s
    · simp only [List.append_assoc, List.cons_append, List.nil_append] at h2 ⊢; rw [h2]; rfl
    · simp only [List.append_assoc, List.cons_append, List.nil_append] at h3 ⊢; rw [h3]; rfl

example : process Ex.env 1 Ex.int (.str c!" -012\n") .inbound true [c!"n"] = .ok (.int (-12)) := rfl

/-- C15. Booleans are rejected natively and serialized, with an InvalidTypeError. -/
theorem C15_bool_rejected (env : Env) (n : Nat) (c : Common) (mn mx : Option Int) (hpre : c.pre = none)
    (hconst : c.constant = .none) (hp : plainErrors (.leaf c (.integer mn mx))) (b : Bool)
    (ph : Phase) (ser : Bool) (anc : List Str) (ha : anc ≠ []) :
    ∃ value, Raises (process env (n + 1) (.leaf c (.integer mn mx)) (.bool b) ph ser anc)
      .invalidType anc value c!"invalid" := by
  have hnp : NoPre c (.integer mn mx) := NoPre.mk' hpre (by simp)
  have hnn : NotNull (.integer mn mx) (.bool b) := NotNull.mk' (by simp) (by simp)
  have hc : checkConst (.leaf c (.integer mn mx)) c (.bool b) anc = .ok (.bool b) := checkConst_ok (.inl hconst)
  cases ser with
  | false =>
    rw [process_leaf_native hnp hnn ha, hc]
    exact ⟨_, Raises.of_mkErr hp ⟨_, rfl, rfl⟩⟩
  | true =>
    cases ph with
    | inbound =>
      rw [process_leaf_in hnp hnn ha]
      exact ⟨_, Raises.of_mkErr hp ⟨_, rfl, rfl⟩⟩
    | outbound =>
      rw [process_leaf_out hnp hnn ha, hc]
      exact ⟨_, Raises.of_mkErr hp ⟨_, rfl, rfl⟩⟩

/-- C15. A native value that is not an integer is an InvalidTypeError with token 'invalid'. -/
theorem C15_type_rejected (env : Env) (n : Nat) (c : Common) (mn mx : Option Int) (hpre : c.pre = none)
    (hp : plainErrors (.leaf c (.integer mn mx))) (v : Val) (hv : v ≠ .none) (hi : ∀ i, v ≠ .int i)
    (ph : Phase) (anc : List Str) (ha : anc ≠ []) :
    Raises (process env (n + 1) (.leaf c (.integer mn mx)) v ph false anc) .invalidType anc v c!"invalid" := by
  rw [process_leaf_native (NoPre.mk' hpre (by simp)) (NotNull.mk' hv (by simp)) ha]
  have hinv : Raises (.error (mkErr (.leaf c (.integer mn mx)) .invalidType anc v c!"invalid" []))
      .invalidType anc v c!"invalid" := Raises.of_mkErr hp ⟨_, rfl, rfl⟩
  unfold checkConst
  split
  · exact hinv
  · rw [except_bind_ok]
    cases v <;> first | exact hinv | exact absurd rfl (hi _)

/-- C15. An integer below the minimum is a ValidationError with token 'minimum'. -/
theorem C15_minimum (env : Env) (n : Nat) (c : Common) (m : Int) (mx : Option Int) (hpre : c.pre = none)
    (hp : plainErrors (.leaf c (.integer (some m) mx))) (i : Int) (hc : ConstOk c (.int i)) (hi : i < m)
    (ph : Phase) (anc : List Str) (ha : anc ≠ []) :
    Raises (process env (n + 1) (.leaf c (.integer (some m) mx)) (.int i) ph false anc)
      .validation anc (.int i) c!"minimum" := by
  rw [process_leaf_native (NoPre.mk' hpre (by simp)) (NotNull.mk' (by simp) (by simp)) ha, checkConst_ok hc,
    except_bind_ok]
  simp only [validateLeaf, violates_some, hi, decide_true, if_true]
  exact Raises.of_mkErr hp ⟨_, rfl, rfl⟩

/-- C15. An integer above the maximum is a ValidationError with token 'maximum'. -/
theorem C15_maximum (env : Env) (n : Nat) (c : Common) (mn : Option Int) (m : Int) (hpre : c.pre = none)
    (hp : plainErrors (.leaf c (.integer mn (some m)))) (i : Int) (hc : ConstOk c (.int i))
    (hmn : ∀ k, mn = some k → k ≤ i) (hi : m < i)
    (ph : Phase) (anc : List Str) (ha : anc ≠ []) :
    Raises (process env (n + 1) (.leaf c (.integer mn (some m))) (.int i) ph false anc)
      .validation anc (.int i) c!"maximum" := by
  rw [process_leaf_native (NoPre.mk' hpre (by simp)) (NotNull.mk' (by simp) (by simp)) ha, checkConst_ok hc,
    except_bind_ok]
  have h1 : violates (fun m => decide (i < m)) mn = false :=
    (violates_false _ _).2 fun k hk => by have := hmn k hk; simpa using this
  simp only [validateLeaf, h1, violates_some, gt_iff_lt, hi, decide_true, if_true, Bool.false_eq_true, if_false]
  exact Raises.of_mkErr hp ⟨_, rfl, rfl⟩

example : Raises (process Ex.env 1 (.leaf {} (.integer (some 2) (some 5))) (.int 6) .inbound false [c!"n"])
    .validation [c!"n"] (.int 6) c!"maximum" :=
  C15_maximum _ _ _ _ _ rfl (by simp [plainErrors, Field.common?]) _ (.inl rfl) (by simp) (by decide) _ _ (by simp)

/-! ### everything serialized -/

theorem digitVal_underscore (u : Chars) : digitVal u '_' = none := rfl

theorem parseDigitsAux_iff (u : Chars) (s : Str) (acc m : Nat) :
    parseDigitsAux u s acc = some m ↔ (s = [] ∧ m = acc) ∨
      ∃ ds, (DigitText u s ds ∨ ∃ t, s = '_' :: t ∧ DigitText u t ds) ∧ m = ds.foldl (fun acc d => acc * 10 + d) acc := by
  fun_induction parseDigitsAux u s acc with
  | case1 acc => simp only [Option.some.injEq, true_and, reduceCtorEq, false_and, exists_false, or_false]
                 constructor
                 · rintro rfl; exact .inl rfl
                 · rintro (rfl | ⟨ds, h, rfl⟩)
                   · rfl
                   · cases h
  | case2 c r acc d hd ih =>
    rw [ih]
    simp only [reduceCtorEq, false_and, false_or]
    have hc : c ≠ '_' := by rintro rfl; rw [digitVal_underscore] at hd; cases hd
    constructor
    · rintro (⟨rfl, rfl⟩ | ⟨ds, h | ⟨t, rfl, h⟩, rfl⟩)
      · exact ⟨[d], .inl (.one (.of hd)), rfl⟩
      · exact ⟨d :: ds, .inl (.cons (.of hd) h), rfl⟩
      · exact ⟨d :: ds, .inl (.under (.of hd) h), rfl⟩
    · rintro ⟨ds, h | ⟨t, ht, h⟩, rfl⟩
      · cases h with
        | one h => rw [← digitVal_iff, hd] at h; cases h; exact .inl ⟨rfl, rfl⟩
        | cons h h' => rw [← digitVal_iff, hd] at h; cases h; exact .inr ⟨_, .inl h', rfl⟩
        | under h h' => rw [← digitVal_iff, hd] at h; cases h; exact .inr ⟨_, .inr ⟨_, rfl, h'⟩, rfl⟩
      · cases ht; exact absurd rfl hc
  | case3 acc hd =>
    simp only [reduceCtorEq, false_and, false_or, false_iff, not_exists, not_and]
    rintro ds (h | ⟨t, ht, h⟩)
    · cases h with
      | one h => rw [← digitVal_iff, hd] at h; cases h
      | cons h => rw [← digitVal_iff, hd] at h; cases h
    · cases ht; cases h
  | case4 acc c' r' d hd' hd ih =>
    rw [ih]
    simp only [reduceCtorEq, false_and, false_or]
    constructor
    · rintro (⟨rfl, rfl⟩ | ⟨ds, h | ⟨t, rfl, h⟩, rfl⟩)
      · exact ⟨[d], .inr ⟨_, rfl, .one (.of hd')⟩, rfl⟩
      · exact ⟨d :: ds, .inr ⟨_, rfl, .cons (.of hd') h⟩, rfl⟩
      · exact ⟨d :: ds, .inr ⟨_, rfl, .under (.of hd') h⟩, rfl⟩
    · rintro ⟨ds, h | ⟨t, ht, h⟩, rfl⟩
      · cases h with
        | cons h => rw [← digitVal_iff, hd] at h; cases h
        | under h => rw [← digitVal_iff, hd] at h; cases h
      · cases ht
        cases h with
        | one h => rw [← digitVal_iff, hd'] at h; cases h; exact .inl ⟨rfl, rfl⟩
        | cons h h' => rw [← digitVal_iff, hd'] at h; cases h; exact .inr ⟨_, .inl h', rfl⟩
        | under h h' => rw [← digitVal_iff, hd'] at h; cases h; exact .inr ⟨_, .inr ⟨_, rfl, h'⟩, rfl⟩
  | case5 acc c' r' hd' hd =>
    simp only [reduceCtorEq, false_and, false_or, false_iff, not_exists, not_and]
    rintro ds (h | ⟨t, ht, h⟩)
    · cases h with
      | cons h => rw [← digitVal_iff, hd] at h; cases h
      | under h => rw [← digitVal_iff, hd] at h; cases h
    · cases ht
      cases h with
      | one h => rw [← digitVal_iff, hd'] at h; cases h
      | cons h => rw [← digitVal_iff, hd'] at h; cases h
      | under h => rw [← digitVal_iff, hd'] at h; cases h
  | case6 acc c r hd hc =>
    simp only [reduceCtorEq, false_and, false_or, false_iff, not_exists, not_and]
    rintro ds (h | ⟨t, ht, h⟩)
    · cases h with
      | one h => rw [← digitVal_iff, hd] at h; cases h
      | cons h => rw [← digitVal_iff, hd] at h; cases h
      | under h => rw [← digitVal_iff, hd] at h; cases h
    · cases ht; exact absurd rfl hc

theorem parseDigits_iff (u : Chars) (s : Str) (m : Nat) :
    parseDigits u s = some m ↔ ∃ ds, DigitText u s ds ∧ m = ds.foldl (fun acc d => acc * 10 + d) 0 := by
  unfold parseDigits
  cases s with
  | nil =>
    simp only [reduceCtorEq, false_iff, not_exists, not_and]
    intro ds h; cases h
  | cons c r =>
    cases hd : digitVal u c with
    | none =>
      simp only [hd, reduceCtorEq, false_iff, not_exists, not_and]
      intro ds h
      cases h with
      | one h => rw [← digitVal_iff, hd] at h; cases h
      | cons h => rw [← digitVal_iff, hd] at h; cases h
      | under h => rw [← digitVal_iff, hd] at h; cases h
    | some d =>
      simp only [hd]
      rw [parseDigitsAux_iff]
      constructor
      · rintro (⟨rfl, rfl⟩ | ⟨ds, h | ⟨t, rfl, h⟩, rfl⟩)
        · exact ⟨[m], .one (.of hd), by simp⟩
        · exact ⟨d :: ds, .cons (.of hd) h, by simp⟩
        · exact ⟨d :: ds, .under (.of hd) h, by simp⟩
      · rintro ⟨ds, h, rfl⟩
        cases h with
        | one h => rw [← digitVal_iff, hd] at h; cases h; exact .inl ⟨rfl, by simp⟩
        | cons h h' => rw [← digitVal_iff, hd] at h; cases h; exact .inr ⟨_, .inl h', by simp⟩
        | under h h' => rw [← digitVal_iff, hd] at h; cases h; exact .inr ⟨_, .inr ⟨_, rfl, h'⟩, by simp⟩

theorem digitText_head {u : Chars} {s : Str} {ds : List Nat} (h : DigitText u s ds) : ∃ c r, s = c :: r ∧ c ≠ '-' ∧ c ≠ '+' := by
  have key : ∀ {c d}, DigitChar u c d → c ≠ '-' ∧ c ≠ '+' := by
    intro c d h
    rw [← digitVal_iff] at h
    constructor <;> rintro rfl <;> cases h
  cases h with
  | one h => exact ⟨_, _, rfl, key h⟩
  | cons h => exact ⟨_, _, rfl, key h⟩
  | under h => exact ⟨_, _, rfl, key h⟩

theorem map_some {o : Option Nat} {g : Int → Int} {x : Int} (h : (o >>= fun a => pure (a : Int)).map g = some x) :
    ∃ m : Nat, o = some m ∧ g m = x := by
  cases o with
  | none => cases h
  | some m => cases h; exact ⟨m, rfl, rfl⟩

theorem parseInt_iff (u : Chars) (s : Str) (i : Int) : parseInt u s = some i ↔ IntText u s i := by
  have hs : ∀ t, strip u s = t ↔ Stripped (isSpace u) s t := fun t => stripBy_eq_iff
  constructor
  · intro h
    unfold parseInt at h
    obtain ⟨a, b, h1, h2, h3, h4, h5⟩ := (hs _).1 rfl
    split at h
    · rename_i r heq
      obtain ⟨m, hm, rfl⟩ := map_some h
      obtain ⟨ds, hds, rfl⟩ := (parseDigits_iff ..).1 hm
      rw [heq] at h1 h4 h5
      exact ⟨a, b, ['-'], r, ds, h1, h2, h3, h4, h5, hds, .inr ⟨rfl, rfl⟩⟩
    · rename_i r heq
      obtain ⟨m, hm, rfl⟩ := map_some h
      obtain ⟨ds, hds, rfl⟩ := (parseDigits_iff ..).1 hm
      rw [heq] at h1 h4 h5
      exact ⟨a, b, ['+'], r, ds, h1, h2, h3, h4, h5, hds, .inl ⟨.inr rfl, rfl⟩⟩
    · obtain ⟨m, hm, rfl⟩ := map_some h
      obtain ⟨ds, hds, rfl⟩ := (parseDigits_iff ..).1 hm
      exact ⟨a, b, [], _, ds, h1, h2, h3, h4, h5, hds, .inl ⟨.inl rfl, rfl⟩⟩
  · rintro ⟨a, b, sign, body, ds, h1, h2, h3, h4, h5, hds, h⟩
    have hst : strip u s = sign ++ body := (hs _).2 ⟨a, b, h1, h2, h3, h4, h5⟩
    have hp := (parseDigits_iff u body _).2 ⟨ds, hds, rfl⟩
    unfold parseInt
    rw [hst]
    rcases h with ⟨rfl | rfl, rfl⟩ | ⟨rfl, rfl⟩
    · obtain ⟨c, r, rfl, hc1, hc2⟩ := digitText_head hds
      rw [List.nil_append]
      split
      · rename_i heq; cases heq; exact absurd rfl hc1
      · rename_i heq; cases heq; exact absurd rfl hc2
      · rw [hp]; rfl
    · simp only [List.cons_append, List.nil_append, hp]; rfl
    · simp only [List.cons_append, List.nil_append, hp]; rfl

theorem truncated_iff (q : Rat) (i : Int) : Truncated q i ↔ i = if q < 0 then -(-q).floor else q.floor := by
  have h1 := Rat.floor_le q
  have h2 := Rat.lt_floor_add_one q
  have h3 := Rat.floor_le (-q)
  have h4 := Rat.lt_floor_add_one (-q)
  unfold Truncated
  by_cases hq : q < 0
  · have hq' : ¬ 0 ≤ q := by grind
    simp only [hq', false_implies, hq, forall_const, true_and, if_true]
    constructor
    · rintro ⟨h5, h6⟩
      have a1 : -i ≤ (-q).floor := Rat.le_floor_iff.2 (by rw [Rat.intCast_neg]; grind)
      have a2 : ¬ (-i + 1 ≤ (-q).floor) := by
        intro h
        have := Rat.le_floor_iff.1 h
        rw [Rat.intCast_add, Rat.intCast_neg] at this
        grind
      omega
    · rintro rfl
      rw [Rat.intCast_neg]
      rw [Rat.intCast_add] at h4
      grind
  · have hq' : 0 ≤ q := by grind
    simp only [hq', forall_const, hq, false_implies, and_true, if_false]
    constructor
    · rintro ⟨h5, h6⟩
      have a1 : i ≤ q.floor := Rat.le_floor_iff.2 h5
      have a2 : ¬ (i + 1 ≤ q.floor) := by
        intro h
        have := Rat.le_floor_iff.1 h
        rw [Rat.intCast_add] at this
        grind
      omega
    · rintro rfl
      rw [Rat.intCast_add] at h2
      exact ⟨h1, by grind⟩

theorem truncatedScaled_iff (c : Nat) (e : Int) (m : Nat) :
    TruncatedScaled c e m ↔ m = if e < 0 then c / 10 ^ e.natAbs else c * 10 ^ e.natAbs := by
  unfold TruncatedScaled
  have hpos : 0 < 10 ^ e.natAbs := Nat.pow_pos (by omega)
  by_cases he : e < 0
  · have : ¬ 0 ≤ e := by omega
    simp only [this, false_implies, he, forall_const, true_and, if_true]
    constructor
    · rintro ⟨h1, h2⟩
      exact (Nat.div_eq_of_lt_le h1 h2).symm
    · rintro rfl
      exact ⟨Nat.div_mul_le_self .., by rw [Nat.add_mul, Nat.one_mul]; exact Nat.lt_div_mul_add hpos⟩
  · have : 0 ≤ e := by omega
    simp only [this, forall_const, he, false_implies, and_true, if_false]

theorem toInt_iff (env : Env) (v : Val) (hb : ∀ b, v ≠ .bool b) (i : Int) : toInt env v = some i ↔ IntOf env.u v i := by
  constructor
  · intro h
    unfold toInt at h
    split at h
    · cases h; exact .int
    · exact absurd rfl (hb _)
    · cases h; exact .float ((truncated_iff ..).2 rfl)
    · exact .text ((parseInt_iff ..).1 h)
    · split at h
      · rename_i b hall
        exact .bytes (by simpa using hall) ((parseInt_iff ..).1 h)
      · cases h
    · rename_i n c e
      simp only [Option.some.injEq] at h
      subst h
      have key : (if e < 0 then ((c / 10 ^ e.natAbs : Nat) : Int) else ((c * 10 ^ e.natAbs : Nat) : Int)) =
          ((if e < 0 then c / 10 ^ e.natAbs else c * 10 ^ e.natAbs : Nat) : Int) := by split <;> rfl
      rw [key]
      cases n with
      | false => exact .positive ((truncatedScaled_iff ..).2 rfl)
      | true => exact .negative ((truncatedScaled_iff ..).2 rfl)
    · cases h
  · intro h
    cases h with
    | int => rfl
    | float h => rw [(truncated_iff ..).1 h]; rfl
    | text h => exact (parseInt_iff ..).2 h
    | bytes h1 h2 =>
      simp only [toInt]
      rw [if_pos (by simpa using h1)]
      exact (parseInt_iff ..).2 h2
    | @positive c e m h =>
      have := (truncatedScaled_iff ..).1 h
      subst this
      simp only [toInt, Bool.false_eq_true, if_false]
      split <;> rfl
    | @negative c e m h =>
      have := (truncatedScaled_iff ..).1 h
      subst this
      simp only [toInt, if_true]
      split <;> rfl

/-- C15. Serialized values: accepted iff `int()` makes an integer of them that is within the bounds and equal to the
constant, if there is one.  Texts and ASCII bytes are read in decimal notation, with single underscores between
digits; the fractional parts of floats and decimals are dropped; booleans, infinities and everything else are
rejected. -/
theorem C15_read (env : Env) (n : Nat) (c : Common) (mn mx : Option Int) (hpre : c.pre = none)
    (v w : Val) (hv : v ≠ .none) (anc : List Str) (ha : anc ≠ []) :
    process env (n + 1) (.leaf c (.integer mn mx)) v .inbound true anc = .ok w ↔
      (∀ b, v ≠ .bool b) ∧ ∃ i : Int, IntOf env.u v i ∧ w = .int i ∧ ConstOk c (.int i) ∧ (∀ m, mn = some m → m ≤ i) ∧ (∀ m, mx = some m → i ≤ m) := by
  rw [process_leaf_in (NoPre.mk' hpre (by simp)) (NotNull.mk' hv (by simp)) ha, except_bind_eq_ok]
  have hu : ∀ x, unserializeLeaf env (.leaf c (.integer mn mx)) (.integer mn mx) v anc = .ok x ↔
      (∀ b, v ≠ .bool b) ∧ ∃ i, IntOf env.u v i ∧ x = .int i := by
    intro x
    by_cases hb : ∃ b, v = .bool b
    · obtain ⟨b, rfl⟩ := hb
      simp [unserializeLeaf]
    · have hb' : ∀ b, v ≠ .bool b := fun b h => hb ⟨b, h⟩
      have : unserializeLeaf env (.leaf c (.integer mn mx)) (.integer mn mx) v anc = match toInt env v with
          | some i => .ok (.int i)
          | none => .error (mkErr (.leaf c (.integer mn mx)) .invalidType anc v c!"invalid" []) := by
        cases v <;> first | rfl | exact absurd rfl (hb' _)
      rw [this]
      cases ht : toInt env v with
      | none =>
        simp only [reduceCtorEq, false_iff, not_and, not_exists]
        intro _ i hi
        rw [(toInt_iff env v hb' i).2 hi] at ht; cases ht
      | some i =>
        have hi := (toInt_iff env v hb' i).1 ht
        simp only [Except.ok.injEq]
        constructor
        · rintro rfl; exact ⟨hb', i, hi, rfl⟩
        · rintro ⟨_, j, hj, rfl⟩
          rw [(toInt_iff env v hb' j).2 hj] at ht; cases ht; rfl
  simp only [hu, except_bind_eq_ok, checkConst_eq_ok, validate_integer, Within]
  constructor
  · rintro ⟨x, ⟨hb, i, hi, rfl⟩, a, ⟨rfl, h1⟩, j, hj, h2, h3⟩
    cases hj
    exact ⟨hb, i, hi, h2, h1, h3⟩
  · rintro ⟨hb, i, hi, rfl, h1, h2⟩
    exact ⟨_, ⟨hb, i, hi, rfl⟩, _, ⟨rfl, h1⟩, i, rfl, rfl, h2⟩

example : process Ex.env 1 Ex.int (.str c!" 1_000") .inbound true [c!"n"] = .ok (.int 1000) := rfl
example : IntOf Ex.env.u (.float (.fin (-5 / 2))) (-2) := .float ⟨fun h => by grind, fun _ => by constructor <;> grind⟩
example : IntOf Ex.env.u (.bytes [⟨52, by decide⟩]) 4 :=
  .bytes (by intro x hx; cases hx with | head => exact Nat.lt_of_sub_pos (by decide) | tail _ h => cases h) ⟨[], [], [], ['4'], [4], rfl, by simp, by simp, by rintro _ ⟨⟩; rfl, by rintro _ ⟨⟩; rfl, .one (.of rfl), .inl ⟨.inl rfl, rfl⟩⟩

end Scheme
