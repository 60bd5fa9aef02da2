import Verif.Lemmas.Basic

/-! Python equality. -/

namespace Scheme

theorem numEq_trans {x y z : PyFloat} (h1 : numEq x y = true) (h2 : numEq y z = true) : numEq x z = true := by
  cases x <;> cases y <;> cases z <;> simp_all [numEq]

theorem numEq_symm {x y : PyFloat} (h : numEq x y = true) : numEq y x = true := by
  cases x <;> cases y <;> simp_all [numEq]

theorem pyEq_num {a : Val} {x : PyFloat} (h : numOf a = some x) (b : Val) :
    pyEq a b = true ↔ ∃ y, numOf b = some y ∧ numEq x y = true := by
  cases a <;> simp [numOf] at h <;> subst h <;> cases b <;> simp [pyEq, numOf]

theorem pyEq_num_right {a b : Val} (h : pyEq a b = true) {y : PyFloat} (hb : numOf b = some y) :
    ∃ x, numOf a = some x := by
  cases b <;> simp [numOf] at hb <;> cases a <;> simp_all [pyEq, numOf]

theorem pyEqD_iff (a b : List (Val × Val)) :
    pyEqD a b = true ↔ ∀ e ∈ a, ∃ e' ∈ b, pyEq e.1 e'.1 = true ∧ pyEq e.2 e'.2 = true := by
  induction a with
  | nil => simp [pyEqD]
  | cons e r ih =>
    obtain ⟨k, v⟩ := e
    rw [pyEqD, Bool.and_eq_true, ih, List.any_eq_true]
    simp only [Bool.and_eq_true, List.mem_cons, forall_eq_or_imp]

mutual
theorem pyEq_trans' : ∀ (a b c : Val), pyEq a b = true → pyEq b c = true → pyEq a c = true
  | a, b, c, h1, h2 => by
    cases hn : numOf a with
    | some x =>
      obtain ⟨y, hy, hxy⟩ := (pyEq_num hn b).1 h1
      obtain ⟨z, hz, hyz⟩ := (pyEq_num hy c).1 h2
      exact (pyEq_num hn c).2 ⟨z, hz, numEq_trans hxy hyz⟩
    | none =>
      match a, b, h1 with
      | .none, .none, _ => exact h2
      | .str x, .str y, h1 => simp [pyEq] at h1; subst h1; exact h2
      | .bytes x, .bytes y, h1 => simp [pyEq] at h1; subst h1; exact h2
      | .date x, .date y, h1 => simp [pyEq] at h1; subst h1; exact h2
      | .time x, .time y, h1 => simp [pyEq] at h1; subst h1; exact h2
      | .datetime x, .datetime y, h1 => simp [pyEq] at h1; subst h1; exact h2
      | .field x, .field y, h1 => simp [pyEq] at h1; subst h1; exact h2
      | .surr x, .surr y, h1 => simp [pyEq] at h1; subst h1; exact h2
      | .obj x, .obj y, h1 => simp [pyEq] at h1; subst h1; exact h2
      | .list x, .list y, h1 =>
        cases c with
        | list z => rw [pyEq] at h1 h2 ⊢; exact pyEqL_trans' x y z h1 h2
        | _ => simp [pyEq, numOf] at h2
      | .tuple x, .tuple y, h1 =>
        cases c with
        | tuple z => rw [pyEq] at h1 h2 ⊢; exact pyEqL_trans' x y z h1 h2
        | _ => simp [pyEq, numOf] at h2
      | .dict x, .dict y, h1 =>
        cases c with
        | dict z =>
          rw [pyEq, Bool.and_eq_true, beq_iff_eq] at h1 h2 ⊢
          exact ⟨h1.1.trans h2.1, pyEqD_trans' x y z h1.2 h2.2⟩
        | _ => simp [pyEq, numOf] at h2
theorem pyEqL_trans' : ∀ (a b c : List Val), pyEqL a b = true → pyEqL b c = true → pyEqL a c = true
  | [], [], _, _, h2 => h2
  | [], _ :: _, _, h1, _ => by simp [pyEqL] at h1
  | _ :: _, [], _, h1, _ => by simp [pyEqL] at h1
  | _ :: _, _ :: _, [], _, h2 => by simp [pyEqL] at h2
  | a :: r, b :: s, c :: t, h1, h2 => by
    rw [pyEqL, Bool.and_eq_true] at h1 h2 ⊢
    exact ⟨pyEq_trans' a b c h1.1 h2.1, pyEqL_trans' r s t h1.2 h2.2⟩
theorem pyEqD_trans' : ∀ (a b c : List (Val × Val)), pyEqD a b = true → pyEqD b c = true → pyEqD a c = true
  | [], _, _, _, _ => by simp [pyEqD]
  | (k, v) :: r, b, c, h1, h2 => by
    rw [pyEqD, Bool.and_eq_true] at h1 ⊢
    refine ⟨?_, pyEqD_trans' r b c h1.2 h2⟩
    obtain ⟨e, he, hke⟩ := List.any_eq_true.1 h1.1
    obtain ⟨e', he', h1', h2'⟩ := (pyEqD_iff b c).1 h2 e he
    rw [Bool.and_eq_true] at hke
    rw [List.any_eq_true]
    refine ⟨e', he', ?_⟩
    rw [Bool.and_eq_true]
    exact ⟨pyEq_trans' k e.1 e'.1 hke.1 h1', pyEq_trans' v e.2 e'.2 hke.2 h2'⟩
end

/-- Equality of Python values is transitive. -/
theorem pyEq_trans {a b c : Val} (h1 : pyEq a b = true) (h2 : pyEq b c = true) : pyEq a c = true := pyEq_trans' a b c h1 h2

mutual
theorem pyEq_symm' : ∀ (a b : Val), hashable a = true → pyEq a b = true → pyEq b a = true
  | a, b, ha, h => by
    cases hn : numOf a with
    | some x =>
      obtain ⟨y, hy, hxy⟩ := (pyEq_num hn b).1 h
      exact (pyEq_num hy a).2 ⟨x, hn, numEq_symm hxy⟩
    | none =>
      match a, b, h with
      | .none, .none, h => exact h
      | .str x, .str y, h => simp [pyEq] at h ⊢; exact h.symm
      | .bytes x, .bytes y, h => simp [pyEq] at h ⊢; exact h.symm
      | .date x, .date y, h => simp [pyEq] at h ⊢; exact h.symm
      | .time x, .time y, h => simp [pyEq] at h ⊢; exact h.symm
      | .datetime x, .datetime y, h => simp [pyEq] at h ⊢; exact h.symm
      | .field x, .field y, h => simp [pyEq] at h ⊢; exact h.symm
      | .surr x, .surr y, h => simp [pyEq] at h ⊢; exact h.symm
      | .obj x, .obj y, h => simp [pyEq] at h ⊢; exact h.symm
      | .list x, .list y, _ => simp [hashable] at ha
      | .tuple x, .tuple y, h =>
        rw [pyEq] at h ⊢
        rw [hashable] at ha
        exact pyEqL_symm' x y ha h
      | .dict x, .dict y, _ => simp [hashable] at ha
theorem pyEqL_symm' : ∀ (a b : List Val), hashableL a = true → pyEqL a b = true → pyEqL b a = true
  | [], [], _, h => h
  | [], _ :: _, _, h => by simp [pyEqL] at h
  | _ :: _, [], _, h => by simp [pyEqL] at h
  | a :: r, b :: s, ha, h => by
    rw [hashableL, Bool.and_eq_true] at ha
    rw [pyEqL, Bool.and_eq_true] at h ⊢
    exact ⟨pyEq_symm' a b ha.1 h.1, pyEqL_symm' r s ha.2 h.2⟩
end

theorem pyEq_symm {a b : Val} (ha : hashable a = true) (h : pyEq a b = true) : pyEq b a = true := pyEq_symm' a b ha h

mutual
/-- Values equal to themselves: no NaN and no exception object inside. -/
def selfEq : Val → Bool
  | .float .nan => false
  | .decimal .nan => false
  | .exc .. => false
  | .list l => selfEqL l
  | .tuple l => selfEqL l
  | .dict d => selfEqD d
  | _ => true
def selfEqL : List Val → Bool
  | [] => true
  | v :: r => selfEq v && selfEqL r
def selfEqD : List (Val × Val) → Bool
  | [] => true
  | (k, v) :: r => selfEq k && selfEq v && selfEqD r
end

theorem selfEqD_iff (d : List (Val × Val)) : selfEqD d = true ↔ ∀ e ∈ d, selfEq e.1 = true ∧ selfEq e.2 = true := by
  induction d with
  | nil => simp [selfEqD]
  | cons e r ih => obtain ⟨k, v⟩ := e; simp [selfEqD, ih]

mutual
theorem pyEq_refl' : ∀ a : Val, selfEq a = true → pyEq a a = true
  | .none, _ => rfl
  | .bool b, _ => by simp [pyEq, numOf, numEq]
  | .int b, _ => by simp [pyEq, numOf, numEq]
  | .float x, h => by cases x <;> simp_all [pyEq, numOf, numEq, selfEq]
  | .str s, _ => by simp [pyEq]
  | .bytes s, _ => by simp [pyEq]
  | .date s, _ => by simp [pyEq]
  | .time s, _ => by simp [pyEq]
  | .datetime s, _ => by simp [pyEq]
  | .decimal d, h => by cases d <;> simp_all [pyEq, numOf, numEq, selfEq, decNum]
  | .list l, h => by rw [selfEq] at h; rw [pyEq]; exact pyEqL_refl' l h
  | .tuple l, h => by rw [selfEq] at h; rw [pyEq]; exact pyEqL_refl' l h
  | .dict d, h => by
    rw [selfEq] at h
    rw [pyEq, (pyEqD_iff d d).2 (pyEqD_refl' d h)]; simp
  | .field _, _ => by simp [pyEq]
  | .surr _, _ => by simp [pyEq]
  | .obj _, _ => by simp [pyEq]
  | .exc .., h => by simp [selfEq] at h
theorem pyEqL_refl' : ∀ l : List Val, selfEqL l = true → pyEqL l l = true
  | [], _ => rfl
  | v :: r, h => by
    rw [selfEqL, Bool.and_eq_true] at h
    rw [pyEqL, Bool.and_eq_true]; exact ⟨pyEq_refl' v h.1, pyEqL_refl' r h.2⟩
theorem pyEqD_refl' : ∀ d : List (Val × Val), selfEqD d = true → ∀ e ∈ d, ∃ e' ∈ d, pyEq e.1 e'.1 = true ∧ pyEq e.2 e'.2 = true
  | [], _, e, he => by simp at he
  | (k, v) :: r, h, e, he => by
    rw [selfEqD, Bool.and_eq_true, Bool.and_eq_true] at h
    rcases List.mem_cons.1 he with rfl | he
    · exact ⟨_, List.mem_cons_self .., pyEq_refl' k h.1.1, pyEq_refl' v h.1.2⟩
    · obtain ⟨e', he', h'⟩ := pyEqD_refl' r h.2 e he
      exact ⟨e', List.mem_cons_of_mem _ he', h'⟩
end

theorem pyEq_refl {a : Val} (h : selfEq a = true) : pyEq a a = true := pyEq_refl' a h

end Scheme
