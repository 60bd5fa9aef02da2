import Verif.Model.Process

/-! Helper lemmas about values, dicts and the exception monad. -/

namespace Scheme

@[simp] theorem except_bind_ok {ε α β} (a : α) (f : α → Except ε β) : (Except.ok a >>= f) = f a := rfl
@[simp] theorem except_bind_error {ε α β} (e : ε) (f : α → Except ε β) :
    ((Except.error e : Except ε α) >>= f) = Except.error e := rfl
@[simp] theorem except_pure {ε α} (a : α) : (pure a : Except ε α) = Except.ok a := rfl
@[simp] theorem except_throw {ε α} (e : ε) : (throw e : Except ε α) = Except.error e := rfl

theorem except_bind_eq_ok {ε α β} {x : Except ε α} {f : α → Except ε β} {b : β} :
    (x >>= f) = .ok b ↔ ∃ a, x = .ok a ∧ f a = .ok b := by
  cases x <;> simp

theorem pyEq_str_left (s : Str) (v : Val) : pyEq (.str s) v = true ↔ v = .str s := by
  cases v with
  | str t => simp [pyEq]; exact eq_comm
  | _ => simp [pyEq, numOf]

theorem pyEq_str_str (s t : Str) : pyEq (.str s) (.str t) = decide (s = t) := by
  rw [pyEq]; simp [Bool.beq_eq_decide_eq]

theorem pyIn_str (s : Str) (l : List Val) : pyIn (.str s) l = true ↔ Val.str s ∈ l := by
  simp only [pyIn, List.any_eq_true, pyEq_str_left]
  constructor
  · rintro ⟨x, hx, rfl⟩; exact hx
  · intro h; exact ⟨_, h, rfl⟩

theorem dictGet_str_isSome (d : List (Val × Val)) (s : Str) :
    (dictGet d (.str s)).isSome = true ↔ Val.str s ∈ d.map (·.1) := by
  induction d with
  | nil => simp [dictGet]
  | cons e r ih =>
    obtain ⟨k, v⟩ := e
    simp only [dictGet, List.map_cons, List.mem_cons]
    by_cases h : pyEq (.str s) k = true
    · simp only [h, if_true, Option.isSome_some, true_iff]
      left; exact ((pyEq_str_left _ _).1 h).symm
    · simp only [h, Bool.false_eq_true, if_false, ih]
      constructor
      · exact Or.inr
      · rintro (h' | h')
        · exact absurd ((pyEq_str_left _ _).2 h'.symm) h
        · exact h'

theorem dictGet_str_none (d : List (Val × Val)) (s : Str) :
    dictGet d (.str s) = none ↔ Val.str s ∉ d.map (·.1) := by
  rw [← dictGet_str_isSome]; cases dictGet d (.str s) <;> simp

/-- Setting a text key that is not present appends it. -/
theorem dictSet_fresh (d : List (Val × Val)) (s : Str) (v : Val)
    (h : Val.str s ∉ d.map (·.1)) : dictSet d (.str s) v = d ++ [(.str s, v)] := by
  induction d with
  | nil => rfl
  | cons e r ih =>
    obtain ⟨k, w⟩ := e
    simp only [List.map_cons, List.mem_cons, not_or] at h
    simp only [dictSet]
    rw [if_neg, ih h.2]; rfl
    rw [pyEq_str_left]; exact fun h' => h.1 h'.symm

theorem isNone_iff (v : Val) : v.isNone = true ↔ v = .none := by cases v <;> simp [Val.isNone]

theorem violates_iff {α : Type} (p : α → Bool) (o : Option α) :
    violates p o = true ↔ ∃ m, o = some m ∧ p m = true := by
  cases o <;> simp [violates]

theorem violates_false {α : Type} (p : α → Bool) (o : Option α) :
    violates p o = false ↔ ∀ m, o = some m → p m = false := by
  cases o <;> simp [violates]

@[simp] theorem violates_some {α : Type} (p : α → Bool) (m : α) : violates p (some m) = p m := rfl
@[simp] theorem violates_none {α : Type} (p : α → Bool) : violates p none = false := rfl

theorem except_map_eq_ok {ε α β} {x : Except ε α} {f : α → β} {b : β} :
    x.map f = .ok b ↔ ∃ a, x = .ok a ∧ f a = b := by
  cases x <;> simp [Except.map]

end Scheme
