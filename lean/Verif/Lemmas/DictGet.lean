import Verif.Lemmas.DictSet
import Verif.Lemmas.PyEq

/-! Reading a dict after writing it. -/

namespace Scheme

theorem dictGet_congr {a b : Val} (ha : hashable a = true) (h : pyEq a b = true) (d : List (Val × Val)) :
    dictGet d a = dictGet d b := by
  induction d with
  | nil => rfl
  | cons e r ih =>
    obtain ⟨k, v⟩ := e
    have : pyEq a k = pyEq b k := by
      rw [Bool.eq_iff_iff]
      exact ⟨fun h1 => pyEq_trans (pyEq_symm ha h) h1, fun h1 => pyEq_trans h h1⟩
    simp only [dictGet, this, ih]

theorem dictGet_dictSet_self {d : List (Val × Val)} {k v : Val} (hk : pyEq k k = true) :
    dictGet (dictSet d k v) k = some v := by
  induction d with
  | nil => simp [dictSet, dictGet, hk]
  | cons e r ih =>
    obtain ⟨k', v'⟩ := e
    cases h : pyEq k k' <;> simp [dictSet, dictGet, h, ih]

theorem dictGet_dictSet_other {d : List (Val × Val)} {k k' v : Val} (hk : hashable k = true) (hn : pyEq k' k = false) :
    dictGet (dictSet d k v) k' = dictGet d k' := by
  induction d with
  | nil => simp [dictSet, dictGet, hn]
  | cons e r ih =>
    obtain ⟨k2, v2⟩ := e
    cases h : pyEq k k2 with
    | true =>
      have : pyEq k' k2 = false := by
        cases h2 : pyEq k' k2 with
        | false => rfl
        | true => rw [pyEq_trans h2 (pyEq_symm hk h)] at hn; cases hn
      simp [dictSet, dictGet, h, this]
    | false => simp [dictSet, dictGet, h, ih]

theorem dictSet_same {d : List (Val × Val)} {k v : Val} (h : dictGet d k = some v) : dictSet d k v = d := by
  induction d with
  | nil => cases h
  | cons e r ih =>
    obtain ⟨k2, v2⟩ := e
    cases h2 : pyEq k k2 with
    | true =>
      simp only [dictGet, h2, if_true, Option.some.injEq] at h
      simp [dictSet, h2, h]
    | false =>
      simp only [dictGet, h2, Bool.false_eq_true, if_false] at h
      simp [dictSet, h2, ih h]

theorem dictGet_mem {d : List (Val × Val)} {k v : Val} (h : dictGet d k = some v) : ∃ k', (k', v) ∈ d ∧ pyEq k k' = true := by
  induction d with
  | nil => cases h
  | cons e r ih =>
    obtain ⟨k2, v2⟩ := e
    cases h2 : pyEq k k2 with
    | true =>
      simp only [dictGet, h2, if_true, Option.some.injEq] at h
      subst h
      exact ⟨k2, List.mem_cons_self .., h2⟩
    | false =>
      simp only [dictGet, h2, Bool.false_eq_true, if_false] at h
      obtain ⟨k', hm, he⟩ := ih h
      exact ⟨k', List.mem_cons_of_mem _ hm, he⟩

end Scheme
