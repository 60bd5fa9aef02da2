import Verif.Spec.IntText
import Verif.Lemmas.Leaf
import Verif.Spec.FloatOrder
import Verif.Spec.Examples

/-! C60: Boolean, Float, Object, Definition, Surrogate and Error fields. -/

namespace Scheme

theorem floatLt_iff (x y : PyFloat) : floatLt x y = true ↔ FloatBelow x y := by
  constructor
  · intro h
    cases x with
    | fin a =>
      cases y with
      | fin b => simp only [floatLt, decide_eq_true_eq] at h; exact .fin h
      | inf m => cases m with
        | false => exact .high
        | true => cases h
      | nan => cases h
    | inf n =>
      cases n with
      | false => cases y with
        | inf m => cases m <;> cases h
        | _ => cases h
      | true => cases y with
        | fin b => exact .low
        | inf m => cases m with
          | false => exact .ends
          | true => cases h
        | nan => cases h
    | nan => cases y <;> cases h
  · intro h
    cases h with
    | fin h => simpa [floatLt] using h
    | low => rfl
    | high => rfl
    | ends => rfl

theorem floatLt_false (x y : PyFloat) : floatLt x y = false ↔ ¬ FloatBelow x y := by
  rw [← floatLt_iff]; simp

/-- Not below the minimum, not above the maximum. -/
def FloatWithin (mn mx : Option PyFloat) (x : PyFloat) : Prop :=
  (∀ m, mn = some m → ¬ FloatBelow x m) ∧ ∀ m, mx = some m → ¬ FloatBelow m x

theorem serOut_ok {env : Env} {f : Field} {k : Leaf} {v w : Val} {anc : List Str} :
    serOut env f k v anc = .ok w ↔ serializeLeaf env f k v = .ok w := by
  unfold serOut
  split
  · rename_i h; rw [h]; simp
  · rfl

theorem validate_float {env : Env} {f : Field} {mn mx : Option PyFloat} {v w : Val} {anc : List Str} :
    validateLeaf env f (.float mn mx) v anc = .ok w ↔ ∃ x, v = .float x ∧ w = v ∧ FloatWithin mn mx x := by
  unfold validateLeaf FloatWithin
  cases v with
  | float x =>
    simp only [Val.float.injEq]
    have e1 := violates_false (fun m => floatLt x m) mn
    have e2 := violates_false (fun m => floatLt m x) mx
    simp only [floatLt_false] at e1 e2
    cases h1 : violates (fun m => floatLt x m) mn
    · cases h2 : violates (fun m => floatLt m x) mx
      · simp only [Bool.false_eq_true, if_false, Except.ok.injEq]
        constructor
        · rintro rfl; exact ⟨x, rfl, rfl, e1.1 h1, e2.1 h2⟩
        · rintro ⟨_, _, rfl, _⟩; rfl
      · simp only [if_true, Bool.false_eq_true, if_false, reduceCtorEq, false_iff]
        rintro ⟨j, rfl, _, _, h⟩
        rw [e2.2 h] at h2; cases h2
    · simp only [if_true, reduceCtorEq, false_iff]
      rintro ⟨j, rfl, _, h, _⟩
      rw [e1.2 h] at h1; cases h1
  | _ => simp

theorem validate_definition {env : Env} {anc : List Str} {f : Field} {valid : List Str} {x y : Val} :
    validateLeaf env f (.definition valid) x anc = .ok y ↔
      ∃ h, x = .field h ∧ y = x ∧ (valid = [] ∨ env.fieldType h ∈ valid) := by
  unfold validateLeaf
  cases x with
  | field h =>
    simp only [Val.field.injEq]
    cases valid with
    | nil => simp only [List.isEmpty_nil, Bool.not_true, Bool.false_and, Bool.false_eq_true, if_false, Except.ok.injEq, true_or, and_true]
             exact ⟨fun h => ⟨_, rfl, h.symm⟩, fun ⟨_, _, h⟩ => h.symm⟩
    | cons a r =>
      by_cases hm : env.fieldType h ∈ a :: r
      · have : (a :: r).contains (env.fieldType h) = true := by simpa using hm
        simp only [List.isEmpty_cons, this, Bool.not_true, Bool.and_false, Bool.false_eq_true, if_false, Except.ok.injEq]
        exact ⟨fun e => ⟨h, rfl, e.symm, .inr hm⟩, fun ⟨_, _, e, _⟩ => e.symm⟩
      · have : (a :: r).contains (env.fieldType h) = false := by simpa using hm
        simp only [List.isEmpty_cons, this, Bool.not_false, Bool.and_self, if_true, reduceCtorEq, false_iff]
        rintro ⟨_, rfl, _, e | e⟩
        · cases e
        · exact hm e
  | _ => simp

theorem toFloat_iff (env : Env) (v : Val) (x : PyFloat) : toFloat env v = some x ↔ FloatOf env v x := by
  constructor
  · intro h
    unfold toFloat at h
    split at h
    · cases h; exact .float
    · exact .int h
    · rename_i b
      cases b <;> cases h
      · exact .false
      · exact .true
    · exact .text h
    · rename_i b
      by_cases hb : b.all (·.val < 128) = true
      · rw [if_pos hb] at h
        exact .bytes (by simpa using hb) h
      · rw [if_neg hb] at h; cases h
    · exact .decimal h
    · cases h; exact .infinite
    · cases h; exact .nan
    · cases h
  · intro h
    cases h with
    | bytes h1 h2 =>
      simp only [toFloat]
      rw [if_pos (by simpa using h1)]
      exact h2
    | int h => exact h
    | text h => exact h
    | decimal h => exact h
    | _ => rfl

section
variable (env : Env) (n : Nat) (c : Common) (hpre : c.pre = none) (v w : Val) (hv : v ≠ .none) (anc : List Str) (ha : anc ≠ [])
include hpre hv ha

/-- C60. A Float accepts exactly floats, neither below the minimum nor above the maximum (nan is neither), that equal the
constant; an integer is rejected. -/
theorem C60_float_native (mn mx : Option PyFloat) (ph : Phase) :
    process env (n + 1) (.leaf c (.float mn mx)) v ph false anc = .ok w ↔
      ∃ x, v = .float x ∧ w = v ∧ ConstOk c v ∧ FloatWithin mn mx x := by
  rw [process_leaf_native (NoPre.mk' hpre (by simp)) (NotNull.mk' hv (by simp)) ha, except_bind_eq_ok]
  simp only [checkConst_eq_ok, validate_float]
  constructor
  · rintro ⟨a, ⟨rfl, h1⟩, i, rfl, h2, h3⟩; exact ⟨i, rfl, h2, h1, h3⟩
  · rintro ⟨i, h1, h2, h3, h4⟩; exact ⟨v, ⟨rfl, h3⟩, i, h1, h2, h4⟩

/-- C60. Serialized, whatever float() takes is taken for the float it gives. -/
theorem C60_float_in (mn mx : Option PyFloat) :
    process env (n + 1) (.leaf c (.float mn mx)) v .inbound true anc = .ok w ↔
      ∃ x, FloatOf env v x ∧ w = .float x ∧ ConstOk c w ∧ FloatWithin mn mx x := by
  rw [process_leaf_in (NoPre.mk' hpre (by simp)) (NotNull.mk' hv (by simp)) ha]
  simp only [unserializeLeaf, ← toFloat_iff]
  cases h : toFloat env v with
  | none => simp only [except_bind_error, reduceCtorEq, false_and, exists_false]
  | some x =>
    simp only [except_bind_ok, except_bind_eq_ok, checkConst_eq_ok, validate_float, Option.some.injEq]
    constructor
    · rintro ⟨a, ⟨rfl, h1⟩, i, h2, rfl, h3⟩; cases h2; exact ⟨_, rfl, rfl, h1, h3⟩
    · rintro ⟨i, rfl, rfl, h3, h4⟩; exact ⟨_, ⟨rfl, h3⟩, _, rfl, rfl, h4⟩

/-- C60. Floats are written as they are. -/
theorem C60_float_out (mn mx : Option PyFloat) :
    process env (n + 1) (.leaf c (.float mn mx)) v .outbound true anc =
      process env (n + 1) (.leaf c (.float mn mx)) v .inbound false anc := by
  rw [process_leaf_out' (NoPre.mk' hpre (by simp)) (NotNull.mk' hv (by simp)) ha]
  cases process env (n + 1) (.leaf c (.float mn mx)) v .inbound false anc <;> rfl

/-- C60. A Boolean accepts exactly True and False, in every phase, serialized or not. -/
theorem C60_boolean (ph : Phase) (ser : Bool) :
    process env (n + 1) (.leaf c .boolean) v ph ser anc = .ok w ↔ (∃ b, v = .bool b) ∧ w = v ∧ ConstOk c v := by
  have hn : NoPre c .boolean := NoPre.mk' hpre (by simp)
  have hnn : NotNull .boolean v := NotNull.mk' hv (by simp)
  have key : process env (n + 1) (.leaf c .boolean) v .inbound false anc = .ok w ↔ (∃ b, v = .bool b) ∧ w = v ∧ ConstOk c v := by
    rw [process_leaf_native hn hnn ha, except_bind_eq_ok]
    simp only [checkConst_eq_ok, validateLeaf]
    constructor
    · rintro ⟨a, ⟨rfl, h1⟩, h2⟩
      cases a <;> simp only [reduceCtorEq] at h2
      cases h2; exact ⟨⟨_, rfl⟩, rfl, h1⟩
    · rintro ⟨⟨b, rfl⟩, rfl, h⟩; exact ⟨_, ⟨rfl, h⟩, rfl⟩
  cases ser with
  | false => rw [← key, process_leaf_native hn hnn ha, process_leaf_native hn hnn ha]
  | true =>
    cases ph with
    | inbound => rw [process_leaf_in' hn hnn ha (v' := v) rfl hnn .inbound]; exact key
    | outbound =>
      rw [process_leaf_out' hn hnn ha, ← key]
      cases process env (n + 1) (.leaf c .boolean) v .inbound false anc <;> rfl

/-- C60. An Object accepts anything natively. -/
theorem C60_object_native (ph : Phase) :
    process env (n + 1) (.leaf c .object) v ph false anc = .ok w ↔ w = v ∧ ConstOk c v := by
  rw [process_leaf_native (NoPre.mk' hpre (by simp)) (NotNull.mk' hv (by simp)) ha, except_bind_eq_ok]
  simp only [checkConst_eq_ok, validateLeaf, Except.ok.injEq]
  exact ⟨fun ⟨a, ⟨h1, h2⟩, h3⟩ => ⟨h3 ▸ h1, h2⟩, fun ⟨h1, h2⟩ => ⟨v, ⟨rfl, h2⟩, h1.symm⟩⟩

/-- C60. Serialized, a text is imported, and anything else taken as it is. -/
theorem C60_object_in :
    process env (n + 1) (.leaf c .object) v .inbound true anc = .ok w ↔
      ((∃ s, v = .str s ∧ env.importObj s = some w) ∨ ((∀ s, v ≠ .str s) ∧ w = v)) ∧ ConstOk c w := by
  rw [process_leaf_in (NoPre.mk' hpre (by simp)) (NotNull.mk' hv (by simp)) ha]
  simp only [except_bind_eq_ok, checkConst_eq_ok, validateLeaf, Except.ok.injEq]
  constructor
  · rintro ⟨a, h1, _, ⟨rfl, h2⟩, rfl⟩
    refine ⟨?_, h2⟩
    simp only [unserializeLeaf] at h1
    split at h1
    · rename_i s
      split at h1
      · rename_i o ho; cases h1; exact .inl ⟨s, rfl, ho⟩
      · cases h1
    · rename_i hne; cases h1; exact .inr ⟨hne, rfl⟩
  · rintro ⟨h1, h2⟩
    refine ⟨w, ?_, w, ⟨rfl, h2⟩, rfl⟩
    rcases h1 with ⟨s, rfl, h⟩ | ⟨h, rfl⟩
    · simp only [unserializeLeaf, h]
    · simp only [unserializeLeaf]

/-- C60. A text is written as it is, anything else by its name, if it has one. -/
theorem C60_object_out :
    process env (n + 1) (.leaf c .object) v .outbound true anc = .ok w ↔
      ConstOk c v ∧ ((∃ s, v = .str s ∧ w = v) ∨ ((∀ s, v ≠ .str s) ∧ ∃ s, env.identify v = some s ∧ w = .str s)) := by
  rw [process_leaf_out (NoPre.mk' hpre (by simp)) (NotNull.mk' hv (by simp)) ha]
  simp only [except_bind_eq_ok, checkConst_eq_ok, validateLeaf, Except.ok.injEq]
  have key : serOut env (.leaf c .object) .object v anc = .ok w ↔
      ((∃ s, v = .str s ∧ w = v) ∨ ((∀ s, v ≠ .str s) ∧ ∃ s, env.identify v = some s ∧ w = .str s)) := by
    rw [serOut_ok]
    simp only [serializeLeaf]
    cases v
    case str s => simp [eq_comm]
    all_goals
      simp only [reduceCtorEq, false_and, exists_false, false_or, ne_eq, not_false_eq_true, implies_true, true_and]
      generalize hi : env.identify _ = o
      cases o with
      | none =>
        simp only [reduceCtorEq, false_and, exists_false]
      | some s =>
        simp only [Option.some.injEq, exists_eq_left', eq_comm]
        exact ⟨fun h => by cases h; rfl, fun h => by rw [h]⟩
  constructor
  · rintro ⟨a, ⟨rfl, h⟩, _, rfl, h2⟩; exact ⟨h, key.1 h2⟩
  · rintro ⟨h, h2⟩; exact ⟨v, ⟨rfl, h⟩, v, rfl, key.2 h2⟩

/-- C60. A Definition accepts exactly fields of one of the valid types (of any type if none are given). -/
theorem C60_definition_native (valid : List Str) (ph : Phase) :
    process env (n + 1) (.leaf c (.definition valid)) v ph false anc = .ok w ↔
      ∃ h, v = .field h ∧ w = v ∧ ConstOk c v ∧ (valid = [] ∨ env.fieldType h ∈ valid) := by
  rw [process_leaf_native (NoPre.mk' hpre (by simp)) (NotNull.mk' hv (by simp)) ha, except_bind_eq_ok]
  simp only [checkConst_eq_ok, validate_definition]
  constructor
  · rintro ⟨a, ⟨rfl, h1⟩, i, rfl, h2, h3⟩; exact ⟨i, rfl, h2, h1, h3⟩
  · rintro ⟨i, h1, h2, h3, h4⟩; exact ⟨v, ⟨rfl, h3⟩, i, h1, h2, h4⟩

/-- C60. Serialized, a description is taken for the field reconstructed from it. -/
theorem C60_definition_in (valid : List Str) :
    process env (n + 1) (.leaf c (.definition valid)) v .inbound true anc = .ok w ↔
      ∃ h, w = .field h ∧ (v = .field h ∨ ((∀ h, v ≠ .field h) ∧ env.reconstruct v = some h)) ∧ ConstOk c w ∧
        (valid = [] ∨ env.fieldType h ∈ valid) := by
  rw [process_leaf_in (NoPre.mk' hpre (by simp)) (NotNull.mk' hv (by simp)) ha]
  simp only [except_bind_eq_ok, checkConst_eq_ok, validate_definition]
  constructor
  · rintro ⟨a, h1, _, ⟨rfl, h2⟩, h, rfl, rfl, h4⟩
    refine ⟨h, rfl, ?_, h2, h4⟩
    simp only [unserializeLeaf] at h1
    split at h1
    · cases h1; exact .inl rfl
    · rename_i hne
      split at h1
      · rename_i ho; cases h1; exact .inr ⟨hne, ho⟩
      · cases h1
  · rintro ⟨h, rfl, h1, h2, h3⟩
    refine ⟨.field h, ?_, _, ⟨rfl, h2⟩, h, rfl, rfl, h3⟩
    rcases h1 with rfl | ⟨h1, h4⟩
    · rfl
    · simp only [unserializeLeaf]
      cases v with
      | field h' => exact absurd rfl (h1 h')
      | _ => simp only [h4]

/-- C60. A Surrogate without `valid_surrogates` accepts exactly surrogates; with them it accepts nothing: it asks for an
attribute that surrogates do not have. -/
theorem C60_surrogate_native (valid : List Str) (ph : Phase) :
    process env (n + 1) (.leaf c (.surrogate valid)) v ph false anc = .ok w ↔
      (∃ h, v = .surr h) ∧ w = v ∧ ConstOk c v ∧ valid = [] := by
  rw [process_leaf_native (NoPre.mk' hpre (by simp)) (NotNull.mk' hv (by simp)) ha, except_bind_eq_ok]
  simp only [checkConst_eq_ok, validateLeaf]
  constructor
  · rintro ⟨a, ⟨rfl, h1⟩, h2⟩
    cases a <;> simp only [reduceCtorEq] at h2
    cases valid with
    | nil => cases h2; exact ⟨⟨_, rfl⟩, rfl, h1, rfl⟩
    | cons => cases h2
  · rintro ⟨⟨h, rfl⟩, rfl, h, rfl⟩; exact ⟨_, ⟨rfl, h⟩, rfl⟩

/-- C60. An Error field accepts exactly structural errors. -/
theorem C60_error_native (ph : Phase) :
    process env (n + 1) (.leaf c .error) v ph false anc = .ok w ↔
      (∃ cls i es st x, v = .exc cls i es st x) ∧ w = v ∧ ConstOk c v := by
  rw [process_leaf_native (NoPre.mk' hpre (by simp)) (NotNull.mk' hv (by simp)) ha, except_bind_eq_ok]
  simp only [checkConst_eq_ok, validateLeaf]
  constructor
  · rintro ⟨a, ⟨rfl, h1⟩, h2⟩
    cases a <;> simp only [reduceCtorEq] at h2
    cases h2; exact ⟨⟨_, _, _, _, _, rfl⟩, rfl, h1⟩
  · rintro ⟨⟨_, _, _, _, _, rfl⟩, rfl, h⟩; exact ⟨_, ⟨rfl, h⟩, rfl⟩

end

/-! ### deviations -/

/-- C60. No bounds keep nan out. -/
theorem C60_nan (env : Env) (n : Nat) (mn mx : Option PyFloat) (ph : Phase) :
    process env (n + 1) (.leaf {} (.float mn mx)) (.float .nan) ph false [c!"x"] = .ok (.float .nan) :=
  (C60_float_native env n {} rfl (.float .nan) (.float .nan) (by simp) [c!"x"] (by simp) mn mx ph).2
    ⟨.nan, rfl, rfl, .inl rfl, fun _ _ h => (nomatch h), fun _ _ h => nomatch h⟩

/-- C60. Booleans are read as 0.0 and 1.0 by a Float, though an Integer rejects them (C15). -/
theorem C60_float_bool (env : Env) (n : Nat) :
    process env (n + 1) (.leaf {} (.float none none)) (.bool true) .inbound true [c!"x"] = .ok (.float (.fin 1)) := rfl

/-- C60. An error that came through a format as a list of two is rejected; without errors of its own it is a TypeError. -/
theorem C60_error_pairs (env : Env) (n : Nat) (a b : Val) :
    (∀ w, process env (n + 1) (.leaf {} .error) (.list [a, b]) .inbound true [c!"x"] ≠ .ok w) ∧
    process env (n + 1) (.leaf {} .error) (.tuple [.none, b]) .inbound true [c!"x"] = .error (.py .typeError) :=
  ⟨fun w h => (by cases h), rfl⟩

/-- C60. `valid_surrogates` makes the field fail on every surrogate. -/
theorem C60_valid_surrogates (env : Env) (n : Nat) (s : Str) (r : List Str) (h : Nat) (ph : Phase) :
    process env (n + 1) (.leaf {} (.surrogate (s :: r))) (.surr h) ph false [c!"x"] = .error (.py .attributeError) := rfl

example : process Ex.env 1 (.leaf {} (.float (some (.fin 0)) (some (.inf false)))) (.float (.fin 2)) .inbound false [c!"x"] =
    .ok (.float (.fin 2)) := rfl
example : process Ex.env 1 (.leaf {} (.float (some (.fin 0)) none)) (.int 2) .inbound true [c!"x"] = .ok (.float (.fin 2)) := rfl
example : process Ex.env 1 (.leaf { constant := .bool true } .boolean) (.bool true) .outbound true [c!"x"] = .ok (.bool true) := rfl
example : process Ex.env 1 (.leaf {} (.definition [[]])) (.field 3) .outbound false [c!"x"] = .ok (.field 3) := rfl

end Scheme
