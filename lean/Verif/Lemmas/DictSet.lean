import Verif.Lemmas.MapLoop
import Verif.Spec.Conforms

/-! `dictSet` keeps keys distinct and stores what it is given. -/

namespace Scheme

theorem dictSet_keys (d : List (Val × Val)) (k v : Val) :
    ((∃ e ∈ d, pyEq k e.1 = true) ∧ (dictSet d k v).map (·.1) = d.map (·.1)) ∨
    ((∀ e ∈ d, pyEq k e.1 = false) ∧ dictSet d k v = d ++ [(k, v)]) := by
  induction d with
  | nil => right; simp [dictSet]
  | cons e r ih =>
    obtain ⟨k', v'⟩ := e
    cases h : pyEq k k' with
    | true => left; exact ⟨⟨_, List.mem_cons_self .., h⟩, by simp [dictSet, h]⟩
    | false =>
      rcases ih with ⟨⟨e, he, h1⟩, h2⟩ | ⟨h1, h2⟩
      · left
        exact ⟨⟨e, List.mem_cons_of_mem _ he, h1⟩, by simp [dictSet, h, h2]⟩
      · right
        refine ⟨?_, by simp [dictSet, h, h2]⟩
        intro e he
        rcases List.mem_cons.1 he with rfl | he
        · exact h
        · exact h1 e he

theorem mem_dictSet {d : List (Val × Val)} {k v : Val} {e : Val × Val} (h : e ∈ dictSet d k v) :
    e ∈ d ∨ e.2 = v ∧ (e.1 = k ∨ pyEq k e.1 = true ∧ ∃ x, (e.1, x) ∈ d) := by
  induction d with
  | nil => simp only [dictSet, List.mem_singleton] at h; subst h; exact .inr ⟨rfl, .inl rfl⟩
  | cons a r ih =>
    obtain ⟨k', v'⟩ := a
    simp only [dictSet] at h
    cases hk : pyEq k k' with
    | true =>
      simp only [hk, if_true, List.mem_cons] at h
      rcases h with rfl | h
      · exact .inr ⟨rfl, .inr ⟨hk, v', List.mem_cons_self ..⟩⟩
      · exact .inl (List.mem_cons_of_mem _ h)
    | false =>
      simp only [hk, Bool.false_eq_true, if_false, List.mem_cons] at h
      rcases h with rfl | h
      · exact .inl (List.mem_cons_self ..)
      · rcases ih h with h | ⟨h1, h2 | ⟨h2, x, h3⟩⟩
        · exact .inl (List.mem_cons_of_mem _ h)
        · exact .inr ⟨h1, .inl h2⟩
        · exact .inr ⟨h1, .inr ⟨h2, x, List.mem_cons_of_mem _ h3⟩⟩

theorem dictSet_distinct {d : List (Val × Val)} {k v : Val} (h : DistinctKeys d) : DistinctKeys (dictSet d k v) := by
  unfold DistinctKeys at *
  rcases dictSet_keys d k v with ⟨_, h2⟩ | ⟨h1, h2⟩
  · have a : (d.map (·.1)).Pairwise fun a b => pyEq b a = false := List.pairwise_map.2 h
    rw [← h2] at a
    exact List.pairwise_map.1 a
  · rw [h2, List.pairwise_append]
    refine ⟨h, by simp, ?_⟩
    intro a ha b hb
    simp only [List.mem_singleton] at hb
    subst hb
    exact h1 a ha

theorem dictSet_keeps {d : List (Val × Val)} {k v : Val} {e : Val × Val} (h : e ∈ d) :
    ∃ e' ∈ dictSet d k v, e'.1 = e.1 := by
  have : e.1 ∈ d.map (·.1) := List.mem_map.2 ⟨e, h, rfl⟩
  rcases dictSet_keys d k v with ⟨_, h2⟩ | ⟨_, h2⟩
  · rw [← h2] at this
    obtain ⟨e', he, h⟩ := List.mem_map.1 this
    exact ⟨e', he, h⟩
  · exact ⟨e, by rw [h2]; exact List.mem_append_left _ h, rfl⟩

theorem dictSet_has {d : List (Val × Val)} {k v : Val} :
    ∃ e ∈ dictSet d k v, e.2 = v ∧ (e.1 = k ∨ pyEq k e.1 = true) := by
  induction d with
  | nil => exact ⟨(k, v), by simp [dictSet], rfl, .inl rfl⟩
  | cons a r ih =>
    obtain ⟨k', v'⟩ := a
    cases hk : pyEq k k' with
    | true => exact ⟨(k', v), by simp [dictSet, hk], rfl, .inr hk⟩
    | false =>
      obtain ⟨e, he, h⟩ := ih
      exact ⟨e, by simp only [dictSet, hk, Bool.false_eq_true, if_false]; exact List.mem_cons_of_mem _ he, h⟩

end Scheme
