import Verif.Spec.Python
import Verif.Spec.Chars
import Verif.Lemmas.Chars
import Verif.Lemmas.PyEq
import Verif.Lemmas.Loops
import Verif.Props.Strings

/-! # C86: values are compared, hashed, stored and spelled as Python does -/

namespace Scheme

theorem decRat_spec (n : Bool) (c : Nat) (e : Int) (q : Rat) :
    q * (10 : Rat) ^ (-e).toNat = (if n then -1 else 1) * (c : Rat) * (10 : Rat) ^ e.toNat ↔ q = decRat n c e := by
  have hp : ∀ k : Nat, (10 : Rat) ^ k ≠ 0 := fun k => Rat.ne_of_gt (Rat.pow_pos (by decide))
  have hs : ∀ m : Rat, (if n then (-1 : Rat) else 1) * m = if n then -m else m := by
    intro m; cases n <;> simp [Rat.neg_mul, Rat.one_mul]
  unfold decRat
  by_cases he : e < 0
  · have h1 : e.toNat = 0 := by omega
    have h2 : (-e).toNat = e.natAbs := by omega
    have h3 : mkRat (c : Int) (10 ^ e.natAbs) = (c : Rat) / 10 ^ e.natAbs := by
      rw [Rat.mkRat_eq_div, Rat.intCast_natCast]; simp
    simp only [he, if_true, h1, h2, h3, Rat.pow_zero, Rat.mul_one, hs]
    generalize hx : (10 : Rat) ^ e.natAbs = x
    have hx0 : x ≠ 0 := by rw [← hx]; exact hp _
    cases n with
    | true =>
      simp only [if_true]
      constructor
      · intro h
        have := congrArg (· / x) h
        simp only [Rat.mul_div_cancel hx0] at this
        rw [this, Rat.div_def, Rat.div_def, Rat.neg_mul]
      · rintro rfl
        rw [Rat.neg_mul, Rat.div_mul_cancel hx0]
    | false =>
      simp only [Bool.false_eq_true, if_false]
      constructor
      · intro h
        have := congrArg (· / x) h
        simpa only [Rat.mul_div_cancel hx0] using this
      · rintro rfl
        exact Rat.div_mul_cancel hx0
  · have h1 : (-e).toNat = 0 := by omega
    have h2 : e.toNat = e.natAbs := by omega
    simp only [he, if_false, h1, h2, Rat.pow_zero, Rat.mul_one, hs]
    have : ((c * 10 ^ e.natAbs : Nat) : Rat) = (c : Rat) * 10 ^ e.natAbs := by
      rw [Rat.natCast_mul, Rat.natCast_pow]; rfl
    rw [this]
    cases n <;> simp [Rat.neg_mul]

theorem number_iff {v : Val} {x : PyFloat} : Number v x ↔ numOf v = some x := by
  constructor
  · intro h
    cases h with
    | decimal h => simp only [numOf, decNum, (decRat_spec _ _ _ _).1 h]
    | _ => rfl
  · intro h
    cases v with
    | bool b => cases b <;> cases h <;> first | exact .false | exact .true
    | int i => cases h; exact .int
    | float i => cases h; exact .float
    | decimal d =>
      cases h
      cases d with
      | fin n c e => exact .decimal ((decRat_spec n c e _).2 rfl)
      | inf n => exact .infinity
      | nan => exact .nan
    | _ => cases h

theorem numEq_iff {x y : PyFloat} : numEq x y = true ↔ x = y ∧ x ≠ .nan := by
  cases x <;> cases y <;> simp [numEq]

theorem pyEqL_iff' : ∀ (l l' : List Val), pyEqL l l' = true ↔
    l.length = l'.length ∧ ∀ (i : Nat) x y, l[i]? = some x → l'[i]? = some y → pyEq x y = true
  | [], [] => by simp [pyEqL]
  | [], _ :: _ => by simp [pyEqL]
  | _ :: _, [] => by simp [pyEqL]
  | a :: r, b :: s => by
    rw [pyEqL, Bool.and_eq_true, pyEqL_iff' r s]
    constructor
    · rintro ⟨h, hl, hr⟩
      refine ⟨by simp [hl], fun i x y hx hy => ?_⟩
      cases i with
      | zero => cases hx; cases hy; exact h
      | succ i => exact hr i x y hx hy
    · rintro ⟨hl, h⟩
      exact ⟨h 0 a b rfl rfl, by simpa using hl, fun i x y hx hy => h (i + 1) x y hx hy⟩

theorem pyEqual_of : ∀ (a b : Val), pyEq a b = true → PyEqual a b
  | a, b, h => by
    cases hn : numOf a with
    | some x =>
      obtain ⟨y, hy, hxy⟩ := (pyEq_num hn b).1 h
      obtain ⟨rfl, hx⟩ := numEq_iff.1 hxy
      exact .number (number_iff.2 hn) (number_iff.2 hy) hx
    | none =>
      match a, b, h with
      | .none, .none, _ => exact .none
      | .str x, .str y, h => simp [pyEq] at h; subst h; exact .str
      | .bytes x, .bytes y, h => simp [pyEq] at h; subst h; exact .bytes
      | .date x, .date y, h => simp [pyEq] at h; subst h; exact .date
      | .time x, .time y, h => simp [pyEq] at h; subst h; exact .time
      | .datetime x, .datetime y, h => simp [pyEq] at h; subst h; exact .datetime
      | .field x, .field y, h => simp [pyEq] at h; subst h; exact .field
      | .surr x, .surr y, h => simp [pyEq] at h; subst h; exact .surr
      | .obj x, .obj y, h => simp [pyEq] at h; subst h; exact .obj
      | .list x, .list y, h =>
        rw [pyEq, pyEqL_iff'] at h
        exact .list h.1 fun i u w hu hw =>
          have : sizeOf u < sizeOf x := List.sizeOf_lt_of_mem (List.mem_of_getElem? hu)
          pyEqual_of u w (h.2 i u w hu hw)
      | .tuple x, .tuple y, h =>
        rw [pyEq, pyEqL_iff'] at h
        exact .tuple h.1 fun i u w hu hw =>
          have : sizeOf u < sizeOf x := List.sizeOf_lt_of_mem (List.mem_of_getElem? hu)
          pyEqual_of u w (h.2 i u w hu hw)
      | .dict x, .dict y, h =>
        rw [pyEq, Bool.and_eq_true, beq_iff_eq, pyEqD_iff] at h
        have hex : ∀ e, ∃ e', e ∈ x → e' ∈ y ∧ pyEq e.1 e'.1 = true ∧ pyEq e.2 e'.2 = true := by
          intro e
          by_cases he : e ∈ x
          · obtain ⟨e', h'⟩ := h.2 e he; exact ⟨e', fun _ => h'⟩
          · exact ⟨e, fun h' => absurd h' he⟩
        exact .dict (fun e => (hex e).choose) h.1 (fun e he => ((hex e).choose_spec he).1)
          (fun e he =>
            have : sizeOf e.1 < sizeOf x := by
              have := List.sizeOf_lt_of_mem he
              cases e; simp only [Prod.mk.sizeOf_spec] at this; simp only; omega
            pyEqual_of e.1 _ ((hex e).choose_spec he).2.1)
          (fun e he =>
            have : sizeOf e.2 < sizeOf x := by
              have := List.sizeOf_lt_of_mem he
              cases e; simp only [Prod.mk.sizeOf_spec] at this; simp only; omega
            pyEqual_of e.2 _ ((hex e).choose_spec he).2.2)
termination_by a => sizeOf a
decreasing_by all_goals (subst_vars; simp_wf; omega)

/-- C86. `==` on the values the library handles. -/
theorem C86_equal_iff (a b : Val) : pyEq a b = true ↔ PyEqual a b := by
  refine ⟨pyEqual_of a b, fun h => ?_⟩
  induction h with
  | number ha hb hx =>
    rw [number_iff] at ha hb
    exact (pyEq_num ha _).2 ⟨_, hb, numEq_iff.2 ⟨rfl, hx⟩⟩
  | list hl _ ih => rw [pyEq, pyEqL_iff']; exact ⟨hl, ih⟩
  | tuple hl _ ih => rw [pyEq, pyEqL_iff']; exact ⟨hl, ih⟩
  | dict partner hl hm _ _ ih1 ih2 =>
    rw [pyEq, Bool.and_eq_true, beq_iff_eq, pyEqD_iff]
    exact ⟨hl, fun e he => ⟨_, hm e he, ih1 e he, ih2 e he⟩⟩
  | _ => simp [pyEq]

theorem hashableL_iff (l : List Val) : hashableL l = true ↔ ∀ v ∈ l, hashable v = true := by
  induction l with
  | nil => simp [hashableL]
  | cons v r ih => simp [hashableL, ih]

theorem unhashable_of : ∀ v, hashable v = false → Unhashable v
  | .list _, _ => .list
  | .dict _, _ => .dict
  | .surr _, _ => .surr
  | .tuple l, h => by
    rw [hashable] at h
    have : ¬ ∀ v ∈ l, hashable v = true := fun hh => by
      rw [(hashableL_iff l).2 hh] at h; cases h
    have : ∃ v, v ∈ l ∧ hashable v = false := by
      apply Classical.byContradiction
      intro hn
      exact this fun v hv => by
        cases hh : hashable v with
        | true => rfl
        | false => exact absurd ⟨v, hv, hh⟩ hn
    obtain ⟨v, hv, hh⟩ := this
    have : sizeOf v < sizeOf l := List.sizeOf_lt_of_mem hv
    exact .tuple hv (unhashable_of v hh)
termination_by v => sizeOf v
decreasing_by simp_wf; omega

/-- C86. A value can be hashed unless a list, dict or surrogate has to be. -/
theorem C86_hashable_iff (v : Val) : hashable v = true ↔ ¬ Unhashable v := by
  constructor
  · intro h hu
    induction hu with
    | tuple hm _ ih => rw [hashable, hashableL_iff] at h; exact ih (h _ hm)
    | _ => cases h
  · intro h
    cases hh : hashable v with
    | true => rfl
    | false => exact absurd (unhashable_of v hh) h

theorem decRat_zero (n : Bool) (c : Nat) (e : Int) : decRat n c e = 0 ↔ c = 0 := by
  rw [eq_comm, ← decRat_spec, Rat.zero_mul]
  have hp : (10 : Rat) ^ e.toNat ≠ 0 := Rat.ne_of_gt (Rat.pow_pos (by decide))
  constructor
  · intro h
    rcases Rat.mul_eq_zero.1 h.symm with h | h
    · rcases Rat.mul_eq_zero.1 h with h | h
      · cases n
        · exact absurd h (by decide)
        · exact absurd h (by decide)
      · exact Rat.natCast_eq_zero_iff.1 h
    · exact absurd h hp
  · rintro rfl
    simp

/-- C86. `bool(v)`. -/
theorem C86_falsy_iff (v : Val) : v.truthy = false ↔ Falsy v := by
  have hz : ∀ w : Val, numOf w = some (.fin 0) → Falsy w := fun w h => .zero (number_iff.2 h)
  constructor
  · intro h
    cases v with
    | none => exact .none
    | bool b => cases b <;> first | exact hz _ rfl | cases h
    | int i => simp only [Val.truthy, decide_eq_false_iff_not, Classical.not_not] at h; subst h; exact hz _ rfl
    | float x =>
      cases x with
      | fin q => simp only [Val.truthy, decide_eq_false_iff_not, Classical.not_not] at h; subst h; exact hz _ rfl
      | _ => cases h
    | str s => cases s <;> first | exact .str | cases h
    | bytes s => cases s <;> first | exact .bytes | cases h
    | decimal d =>
      cases d with
      | fin n c e =>
        simp only [Val.truthy, decide_eq_false_iff_not, Classical.not_not] at h
        exact hz _ (by simp only [numOf, decNum, (decRat_zero n c e).2 h])
      | _ => cases h
    | list s => cases s <;> first | exact .list | cases h
    | tuple s => cases s <;> first | exact .tuple | cases h
    | dict s => cases s <;> first | exact .dict | cases h
    | _ => cases h
  · intro h
    cases h with
    | zero h =>
      rw [number_iff] at h
      cases v with
      | bool b => cases b <;> first | rfl | (simp [numOf] at h)
      | int i =>
        simp only [numOf, Option.some.injEq, PyFloat.fin.injEq, Rat.intCast_eq_zero_iff] at h
        simp [Val.truthy, h]
      | float x => cases h; simp [Val.truthy]
      | decimal d =>
        cases d with
        | fin n c e =>
          simp only [numOf, decNum, Option.some.injEq, PyFloat.fin.injEq, decRat_zero] at h
          simp [Val.truthy, h]
        | _ => cases h
      | _ => cases h
    | _ => rfl

theorem not_pyEqual {k k' : Val} : ¬ PyEqual k k' ↔ pyEq k k' = false := by
  rw [← C86_equal_iff]; simp

/-- C86. `d[k]` is the value of the first entry whose key equals `k`. -/
theorem C86_get (d : List (Val × Val)) (k v : Val) :
    dictGet d k = some v ↔ ∃ l k' r, d = l ++ (k', v) :: r ∧ PyEqual k k' ∧ ∀ e ∈ l, ¬ PyEqual k e.1 := by
  simp only [← C86_equal_iff, Bool.not_eq_true]
  induction d with
  | nil => simp [dictGet]
  | cons e r ih =>
    obtain ⟨k0, v0⟩ := e
    rw [dictGet]
    cases h : pyEq k k0 with
    | true =>
      simp only [if_true, Option.some.injEq]
      constructor
      · rintro rfl; exact ⟨[], k0, r, rfl, h, by simp⟩
      · rintro ⟨l, k', r', hd, hk, hl⟩
        cases l with
        | nil => simp only [List.nil_append, List.cons.injEq, Prod.mk.injEq] at hd; exact hd.1.2
        | cons e l =>
          simp only [List.cons_append, List.cons.injEq] at hd
          have := hl e (List.mem_cons_self ..)
          rw [← hd.1, h] at this; cases this
    | false =>
      simp only [Bool.false_eq_true, if_false, ih]
      constructor
      · rintro ⟨l, k', r', rfl, hk, hl⟩
        refine ⟨(k0, v0) :: l, k', r', rfl, hk, fun e he => ?_⟩
        rcases List.mem_cons.1 he with rfl | he
        · exact h
        · exact hl e he
      · rintro ⟨l, k', r', hd, hk, hl⟩
        cases l with
        | nil =>
          simp only [List.nil_append, List.cons.injEq, Prod.mk.injEq] at hd
          rw [hd.1.1, hk] at h; cases h
        | cons e l =>
          simp only [List.cons_append, List.cons.injEq] at hd
          exact ⟨l, k', r', hd.2, hk, fun e he => hl e (List.mem_cons_of_mem _ he)⟩

/-- C86. `d[k] = v` replaces the value of the entry whose key equals `k` in place, or appends an entry. -/
theorem C86_set (d : List (Val × Val)) (k v : Val) :
    (∃ l k' w r, d = l ++ (k', w) :: r ∧ PyEqual k k' ∧ (∀ e ∈ l, ¬ PyEqual k e.1) ∧ dictSet d k v = l ++ (k', v) :: r) ∨
    (∀ e ∈ d, ¬ PyEqual k e.1) ∧ dictSet d k v = d ++ [(k, v)] := by
  simp only [← C86_equal_iff, Bool.not_eq_true]
  induction d with
  | nil => exact .inr ⟨by simp, rfl⟩
  | cons e r ih =>
    obtain ⟨k0, v0⟩ := e
    rw [dictSet]
    cases h : pyEq k k0 with
    | true => exact .inl ⟨[], k0, v0, r, rfl, h, by simp, rfl⟩
    | false =>
      simp only [Bool.false_eq_true, if_false]
      rcases ih with ⟨l, k', w, r', rfl, hk, hl, hs⟩ | ⟨hl, hs⟩
      · refine .inl ⟨(k0, v0) :: l, k', w, r', rfl, hk, fun e he => ?_, by rw [hs]; rfl⟩
        rcases List.mem_cons.1 he with rfl | he
        · exact h
        · exact hl e he
      · refine .inr ⟨fun e he => ?_, by rw [hs]; rfl⟩
        rcases List.mem_cons.1 he with rfl | he
        · exact h
        · exact hl e he

/-- C86. `del d[k]` removes the entry whose key equals `k`. -/
theorem C86_del (d : List (Val × Val)) (k : Val) :
    (∃ l k' w r, d = l ++ (k', w) :: r ∧ PyEqual k k' ∧ (∀ e ∈ l, ¬ PyEqual k e.1) ∧ dictDel d k = l ++ r) ∨
    (∀ e ∈ d, ¬ PyEqual k e.1) ∧ dictDel d k = d := by
  simp only [← C86_equal_iff, Bool.not_eq_true]
  induction d with
  | nil => exact .inr ⟨by simp, rfl⟩
  | cons e r ih =>
    obtain ⟨k0, v0⟩ := e
    rw [dictDel]
    cases h : pyEq k k0 with
    | true => exact .inl ⟨[], k0, v0, r, rfl, h, by simp, rfl⟩
    | false =>
      simp only [Bool.false_eq_true, if_false]
      rcases ih with ⟨l, k', w, r', rfl, hk, hl, hs⟩ | ⟨hl, hs⟩
      · refine .inl ⟨(k0, v0) :: l, k', w, r', rfl, hk, fun e he => ?_, by rw [hs]; rfl⟩
        rcases List.mem_cons.1 he with rfl | he
        · exact h
        · exact hl e he
      · refine .inr ⟨fun e he => ?_, by rw [hs]⟩
        rcases List.mem_cons.1 he with rfl | he
        · exact h
        · exact hl e he

/-- C86. `len(set(l)) == len(l)`. -/
theorem C86_distinct_iff (l : List Val) : allDistinct l = true ↔ l.Pairwise fun a b => ¬ PyEqual a b := by
  simp only [not_pyEqual, allDistinct_iff]

theorem numeral_natStrF : ∀ (f n : Nat), n < f → Numeral n (natStrF f n)
  | 0, _, h => by omega
  | f + 1, n, h => by
    rw [natStrF]
    split
    · rename_i hn; exact .digit hn (digitChar_toNat n hn)
    · rename_i hn
      have h1 : n = 10 * (n / 10) + n % 10 := by omega
      have := Numeral.more (by omega) (Nat.mod_lt n (by omega : 10 > 0)) (numeral_natStrF f (n / 10) (by omega))
        (digitChar_toNat (n % 10) (Nat.mod_lt n (by omega)))
      rwa [← h1] at this

/-- C86. `str(n)`. -/
theorem C86_numeral (n : Nat) : Numeral n (natStr n) := numeral_natStrF _ _ (by omega)

/-- C86. `str(i)`. -/
theorem C86_integer (i : Int) : ∃ s, Numeral i.natAbs s ∧ intStr i = (if i < 0 then '-' :: s else s) := by
  cases i with
  | ofNat n => exact ⟨_, C86_numeral n, by rw [intStr, if_neg (by simp)]⟩
  | negSucc n => exact ⟨_, C86_numeral (n + 1), by rw [intStr, if_pos (Int.negSucc_lt_zero n)]⟩

/-- C86. The step of an identity into a list. -/
theorem C86_index_step (i : Nat) : ∃ s, Numeral i s ∧ idxStep i = c!"[" ++ s ++ c!"]" :=
  ⟨_, C86_numeral i, rfl⟩

theorem lowerChar_spec (u : Chars) (c : Char) : LowerChar u c (lowerChar u c) := by
  unfold lowerChar isAscii asciiUpper
  by_cases h : c.toNat < 128
  · simp only [h, decide_true, if_true]
    by_cases hu : 65 ≤ c.toNat ∧ c.toNat ≤ 90
    · simp only [hu, decide_true, Bool.and_self, if_true]
      have hd : (Char.ofNat (c.toNat + 32)).toNat = c.toNat + 32 := by
        rw [Char.ofNat, dif_pos (by unfold Nat.isValidChar; omega)]
        rfl
      refine .upper (by rw [char_le_iff]; exact hu.1) (by rw [char_le_iff]; exact hu.2) ?_ (by rw [char_le_iff, hd]; show 97 ≤ _; omega)
      rw [hd]
      show c.toNat + 32 - 97 = c.toNat - 65
      omega
    · have : (decide (65 ≤ c.toNat) && decide (c.toNat ≤ 90)) = false := by
        rw [← Bool.not_eq_true, Bool.and_eq_true, decide_eq_true_eq, decide_eq_true_eq]; exact hu
      rw [this]
      exact .other h (by rw [char_le_iff, char_le_iff]; exact hu)
  · simp only [h, decide_false, Bool.false_eq_true, if_false]
    exact .foreign (by omega)

/-- C86. `s.lower()`. -/
theorem C86_lower (u : Chars) (s : Str) : Lowered u s (lower u s) := by
  induction s with
  | nil => exact .nil
  | cons c s ih =>
    have : lower u (c :: s) = lowerChar u c ++ lower u s := by simp [lower]
    rw [this]
    exact .cons (lowerChar_spec u c) ih

/-- C86. `sep.join(parts)`. -/
theorem C86_join (sep : Str) (parts : List Str) (s : Str) : joinStr sep parts = s ↔ JoinedBy sep parts s := by
  have h : ∀ ps : List Str, JoinedBy sep ps (joinStr sep ps) := by
    intro ps
    induction ps with
    | nil => exact .none
    | cons p r ih =>
      cases r with
      | nil => exact .one
      | cons q r => exact .more ih
  constructor
  · rintro rfl; exact h _
  · intro hj
    induction hj with
    | none => rfl
    | one => rfl
    | more _ ih => rw [joinStr, ih]; simp

theorem join_of_splitOn (sep : Char) (s : Str) : joinStr [sep] (splitOn sep s) = s := by
  induction s with
  | nil => rfl
  | cons c r ih =>
    rw [splitOn]
    split
    · rename_i hc
      cases hs : splitOn sep r with
      | nil => exact absurd hs (splitOn_ne_nil sep r)
      | cons p ps =>
        rw [hs] at ih
        rw [joinStr, ih, hc]; rfl
        simp
    · cases hs : splitOn sep r with
      | nil => exact absurd hs (splitOn_ne_nil sep r)
      | cons p ps =>
        rw [hs] at ih
        simp only
        cases ps with
        | nil => simp only [joinStr] at ih ⊢; rw [ih]
        | cons q ps => simp only [joinStr] at ih ⊢; rw [← ih]; simp

/-- C86. `s.split(sep)`: the parts, in which the separator does not occur, joined by it are the text. -/
theorem C86_split (sep : Char) (s : Str) (parts : List Str) :
    splitOn sep s = parts ↔ parts ≠ [] ∧ (∀ p ∈ parts, sep ∉ p) ∧ JoinedBy [sep] parts s := by
  constructor
  · rintro rfl
    exact ⟨splitOn_ne_nil sep s, fun p hp => splitOn_parts hp, (C86_join _ _ _).1 (join_of_splitOn sep s)⟩
  · rintro ⟨hne, hp, hj⟩
    rw [← (C86_join _ _ _).2 hj]
    exact splitOn_join hne hp

/-- C86. `s.strip()`. -/
theorem C86_strip (u : Chars) (s t : Str) : strip u s = t ↔
    ∃ l r, s = l ++ t ++ r ∧ (∀ c ∈ l ++ r, BlankChar u c) ∧
      (∀ c, t.head? = some c → ¬ BlankChar u c) ∧ ∀ c, t.getLast? = some c → ¬ BlankChar u c := by
  have hb : ∀ c, isSpace u c = false ↔ ¬ BlankChar u c := fun c => by rw [← isSpace_iff]; simp
  rw [strip, stripBy_eq_iff]
  simp only [Stripped, isSpace_iff, hb]
  constructor
  · rintro ⟨a, b, hs, ha, hb, hh, hl⟩
    exact ⟨a, b, hs, fun c hc => (List.mem_append.1 hc).elim (ha c) (hb c), hh, hl⟩
  · rintro ⟨a, b, hs, hab, hh, hl⟩
    exact ⟨a, b, hs, fun c hc => hab c (List.mem_append_left _ hc), fun c hc => hab c (List.mem_append_right _ hc), hh, hl⟩

/-- `1`, `1.0`, `True` and `Decimal('1.0')` are equal, so a sequence of unique items rejects them together. -/
example : PyEqual (.int 1) (.float (.fin 1)) ∧ PyEqual (.int 1) (.bool true) ∧
    PyEqual (.dict [(.int 1, .str c!"a"), (.int 2, .none)]) (.dict [(.float (.fin 2), .none), (.bool true, .str c!"a")]) :=
  ⟨(C86_equal_iff _ _).1 rfl, (C86_equal_iff _ _).1 rfl, (C86_equal_iff _ _).1 rfl⟩

example : ¬ PyEqual (.str c!"1") (.int 1) ∧ ¬ PyEqual (.float .nan) (.float .nan) := by
  rw [← C86_equal_iff, ← C86_equal_iff]
  exact ⟨by decide, by decide⟩

end Scheme
