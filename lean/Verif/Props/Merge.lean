import Verif.Lemmas.DictGet
import Verif.Spec.Util

/-! C48: recursive_merge.  C49: access by dotted path. -/

namespace Scheme

theorem mergeVal_dict (w s : List (Val × Val)) : mergeVal (.dict w) (some (.dict s)) = .dict (mergeInto w s) := by
  rw [mergeVal]

theorem mergeVal_other {v : Val} {o : Option Val} (h : ¬ IsDict v ∨ ∀ s, o ≠ some (.dict s)) : mergeVal v o = v := by
  rw [mergeVal]
  intro w s hv ho
  rcases h with h | h
  · exact h ⟨w, hv⟩
  · exact h s ho

/-- C48: what the merged dict holds under a key. -/
theorem C48_keys (a o : List (Val × Val)) (ha : Proper (.dict a)) (k : Val) (hk : Key k) :
    dictGet (mergeInto a o) k = match dictGet a k with
      | none => dictGet o k
      | some v => some (mergeVal v (dictGet o k)) := by
  obtain ⟨h1, h2⟩ : (∀ k v, (k, v) ∈ a → Key k) ∧ DistinctKeys a := by
    cases ha with
    | other h => exact absurd rfl (h a)
    | dict h1 h2 _ => exact ⟨h1, h2⟩
  clear ha
  induction a generalizing o with
  | nil => simp [mergeInto, dictGet]
  | cons e r ih =>
    obtain ⟨k', v⟩ := e
    rw [mergeInto, ih _ (fun k v hm => h1 k v (List.mem_cons_of_mem _ hm)) (List.pairwise_cons.1 h2).2]
    have hk' := h1 k' v (List.mem_cons_self ..)
    cases hkk : pyEq k k' with
    | true =>
      have hnone : dictGet r k = none := by
        rw [dictGet_none]
        intro e he
        have := (List.pairwise_cons.1 h2).1 e he
        cases hx : pyEq k e.1 with
        | false => rfl
        | true =>
          have h3 : pyEq k' e.1 = true := pyEq_trans (pyEq_symm hk.1 hkk) hx
          rw [pyEq_symm hk'.1 h3] at this; cases this
      rw [hnone]
      simp only [dictGet, hkk, if_true]
      rw [dictGet_congr hk.1 hkk, dictGet_dictSet_self hk'.2, dictGet_congr hk.1 hkk]
    | false =>
      rw [dictGet_dictSet_other hk'.1 hkk]
      simp only [dictGet, hkk, Bool.false_eq_true, if_false]

theorem proper_get {d : List (Val × Val)} (h : Proper (.dict d)) {k v : Val} (hg : dictGet d k = some v) : Proper v := by
  cases h with
  | other h => exact absurd rfl (h d)
  | dict _ _ h =>
    obtain ⟨k', hm, _⟩ := dictGet_mem hg
    exact h _ _ hm

/-- C48: at every path, the merged dict holds the addition's value where that is no dict, the merge where both have
dicts, the addition's dict where the original has none, the original's value where the addition has nothing, and
nothing below a value of the addition that is no dict. -/
theorem C48_paths (a o : List (Val × Val)) (ha : Proper (.dict a)) (p : List Val) (hp : ∀ k ∈ p, Key k) :
    (∀ v, getPath (.dict a) p = some v → ¬ IsDict v → getPath (.dict (mergeInto a o)) p = some v) ∧
    (∀ w s, getPath (.dict a) p = some (.dict w) → getPath (.dict o) p = some (.dict s) →
      getPath (.dict (mergeInto a o)) p = some (.dict (mergeInto w s))) ∧
    (∀ w, getPath (.dict a) p = some (.dict w) → (∀ s, getPath (.dict o) p ≠ some (.dict s)) →
      getPath (.dict (mergeInto a o)) p = some (.dict w)) ∧
    (getPath (.dict a) p = none → ¬ Blocked (.dict a) p → getPath (.dict (mergeInto a o)) p = getPath (.dict o) p) ∧
    (Blocked (.dict a) p → getPath (.dict (mergeInto a o)) p = none) := by
  induction p generalizing a o with
  | nil =>
    refine ⟨?_, ?_, ?_, ?_, ?_⟩
    · intro v h hn; cases h; exact (hn ⟨_, rfl⟩).elim
    · intro w s h1 h2; cases h1; cases h2; rfl
    · intro w _ h; exact (h o rfl).elim
    · intro h; cases h
    · rintro ⟨q, r, w, h1, h2, _⟩
      have := (List.append_eq_nil_iff.1 h1.symm).2
      exact (h2 this).elim
  | cons k p ih =>
    have hk := hp k (List.mem_cons_self ..)
    have hp' := fun x hx => hp x (List.mem_cons_of_mem _ hx)
    have hget := C48_keys a o ha k hk
    simp only [getPath]
    rw [hget]
    cases hak : dictGet a k with
    | none =>
      refine ⟨?_, ?_, ?_, ?_, ?_⟩
      · intro v h; cases h
      · intro w s h; cases h
      · intro w h; cases h
      · intro _ _; rfl
      · rintro ⟨q, r, w, h1, h2, h3, h4⟩
        cases q with
        | nil => cases h3; exact (h4 ⟨_, rfl⟩).elim
        | cons k2 q =>
          simp only [List.cons_append, List.cons.injEq] at h1
          simp only [getPath, ← h1.1, hak] at h3; cases h3
    | some v =>
      simp only [Option.bind_some]
      by_cases hv : IsDict v
      · obtain ⟨w, rfl⟩ := hv
        have hw := proper_get ha hak
        have hblk : Blocked (.dict a) (k :: p) ↔ Blocked (.dict w) p := by
          constructor
          · rintro ⟨q, r, x, h1, h2, h3, h4⟩
            cases q with
            | nil => cases h3; exact (h4 ⟨_, rfl⟩).elim
            | cons k2 q =>
              simp only [List.cons_append, List.cons.injEq] at h1
              simp only [getPath, ← h1.1, hak, Option.bind_some] at h3
              exact ⟨q, r, x, h1.2, h2, h3, h4⟩
          · rintro ⟨q, r, x, h1, h2, h3, h4⟩
            exact ⟨k :: q, r, x, by rw [h1]; rfl, h2, by simp only [getPath, hak, Option.bind_some]; exact h3, h4⟩
        rw [hblk]
        by_cases ho : ∃ s, dictGet o k = some (.dict s)
        · obtain ⟨s, ho⟩ := ho
          rw [ho, mergeVal_dict]
          exact ih w s hw hp'
        · rw [mergeVal_other (.inr (fun s h => ho ⟨s, h⟩))]
          have hno : ∀ x, (dictGet o k).bind (getPath · p) = some x → p = [] ∧ ¬ IsDict x := by
            intro x hx
            rw [Option.bind_eq_some_iff] at hx
            obtain ⟨y, hy, hx⟩ := hx
            have hyd : ¬ IsDict y := by rintro ⟨s, rfl⟩; exact ho ⟨s, hy⟩
            cases p with
            | nil => cases hx; exact ⟨rfl, hyd⟩
            | cons k2 p =>
              cases y <;> first | (cases hx; done) | exact (hyd ⟨_, rfl⟩).elim
          refine ⟨fun v h _ => h, ?_, fun w h _ => h, ?_, ?_⟩
          · intro w' s' _ h2
            exact ((hno _ h2).2 ⟨_, rfl⟩).elim
          · intro h _
            rw [h]
            cases hx : (dictGet o k).bind (getPath · p) with
            | none => rfl
            | some x =>
              obtain ⟨rfl, _⟩ := hno x hx
              cases h
          · rintro ⟨q, r, x, h1, h2, h3, h4⟩
            subst h1
            clear hno hp hp' ih hblk
            generalize Val.dict w = y at h3
            clear hak hw
            induction q generalizing y with
            | nil =>
              cases h3
              cases r with
              | nil => exact (h2 rfl).elim
              | cons a r => cases x <;> first | rfl | exact (h4 ⟨_, rfl⟩).elim
            | cons k2 q ih =>
              cases y <;> first | rfl | skip
              simp only [List.cons_append, getPath] at *
              rw [Option.bind_eq_some_iff] at h3
              obtain ⟨z, hz, h3⟩ := h3
              rw [hz]
              exact ih z h3
      · rw [mergeVal_other (.inl hv)]
        have hb : ∀ x, getPath v p = some x → p = [] := by
          intro x hx
          cases p with
          | nil => rfl
          | cons k2 p => cases v <;> first | (cases hx; done) | exact (hv ⟨_, rfl⟩).elim
        refine ⟨fun v h _ => h, ?_, fun w h _ => h, ?_, ?_⟩
        · intro w s h _
          have := hb _ h; subst this
          cases h; exact (hv ⟨_, rfl⟩).elim
        · intro h hblk
          refine (hblk ⟨[k], p, v, rfl, ?_, by simp only [getPath, hak, Option.bind_some], hv⟩).elim
          rintro rfl; cases h
        · rintro ⟨q, r, x, h1, h2, h3, h4⟩
          cases hx : getPath v p with
          | none => rfl
          | some x' =>
            have := hb _ hx; subst this
            cases q with
            | nil => cases h3; exact (h4 ⟨_, rfl⟩).elim
            | cons k2 q =>
              simp only [List.cons_append, List.cons.injEq] at h1
              exact (h2 (List.append_eq_nil_iff.1 h1.2.symm).2).elim

/-- C48: the original's keys stay in place, new keys follow in the order of the addition. -/
theorem C48_order (a o : List (Val × Val)) : ∃ new, (mergeInto a o).map (·.1) = o.map (·.1) ++ new ∧
    List.Sublist new (a.map (·.1)) := by
  induction a generalizing o with
  | nil => exact ⟨[], by simp [mergeInto], by simp⟩
  | cons e r ih =>
    obtain ⟨k, v⟩ := e
    rw [mergeInto]
    obtain ⟨new, h1, h2⟩ := ih (dictSet o k (mergeVal v (dictGet o k)))
    rcases dictSet_keys o k (mergeVal v (dictGet o k)) with ⟨_, h⟩ | ⟨_, h⟩
    · exact ⟨new, by rw [h1, h], h2.cons k⟩
    · exact ⟨k :: new, by rw [h1, h]; simp, h2.cons_cons k⟩

theorem mergeInto_id {a d : List (Val × Val)} (h : ∀ k v, (k, v) ∈ a → ∃ x, dictGet d k = some x ∧ mergeVal v (some x) = x) :
    mergeInto a d = d := by
  induction a with
  | nil => simp [mergeInto]
  | cons e r ih =>
    obtain ⟨k, v⟩ := e
    obtain ⟨x, h1, h2⟩ := h k v (List.mem_cons_self ..)
    rw [mergeInto, h1, h2, dictSet_same h1]
    exact ih (fun k v hm => h k v (List.mem_cons_of_mem _ hm))

theorem dictGet_of_mem {d : List (Val × Val)} (h1 : ∀ k v, (k, v) ∈ d → Key k) (h2 : DistinctKeys d) {k v : Val}
    (hm : (k, v) ∈ d) : dictGet d k = some v := by
  induction d with
  | nil => cases hm
  | cons e r ih =>
    obtain ⟨k', v'⟩ := e
    rcases List.mem_cons.1 hm with h | hm
    · cases h
      simp [dictGet, (h1 _ _ (List.mem_cons_self ..)).2]
    · have : pyEq k k' = false := (List.pairwise_cons.1 h2).1 _ hm
      simp only [dictGet, this, Bool.false_eq_true, if_false]
      exact ih (fun k v hm => h1 k v (List.mem_cons_of_mem _ hm)) (List.pairwise_cons.1 h2).2 hm

theorem merge_again {v : Val} (h : Proper v) :
    (∀ x, mergeVal v (some (mergeVal v x)) = mergeVal v x) ∧ mergeVal v (some v) = v := by
  induction h with
  | @other v h =>
    have hv : ¬ IsDict v := by rintro ⟨d, rfl⟩; exact h d rfl
    exact ⟨fun x => by rw [mergeVal_other (.inl hv), mergeVal_other (.inl hv)], mergeVal_other (.inl hv)⟩
  | @dict d h1 h2 h3 ih =>
    have self : mergeInto d d = d := mergeInto_id fun k v hm => ⟨v, dictGet_of_mem h1 h2 hm, (ih k v hm).2⟩
    refine ⟨fun x => ?_, by rw [mergeVal_dict, self]⟩
    by_cases hx : ∃ s, x = some (.dict s)
    · obtain ⟨s, rfl⟩ := hx
      rw [mergeVal_dict, mergeVal_dict]
      congr 1
      refine mergeInto_id fun k v hm => ?_
      have := C48_keys d s (.dict h1 h2 h3) k (h1 k v hm)
      rw [dictGet_of_mem h1 h2 hm] at this
      exact ⟨_, this, (ih k v hm).1 _⟩
    · rw [mergeVal_other (o := x) (.inr (fun s h => hx ⟨s, h⟩)), mergeVal_dict, self]

/-- C48: merging the same addition a second time changes nothing. -/
theorem C48_idempotent (a o : List (Val × Val)) (ha : Proper (.dict a)) : mergeInto a (mergeInto a o) = mergeInto a o := by
  have := (merge_again ha).1 (some (.dict o))
  rw [mergeVal_dict, mergeVal_dict] at this
  exact Val.dict.inj this

/-- C48: merging a dict with itself changes nothing. -/
theorem C48_self (a : List (Val × Val)) (ha : Proper (.dict a)) : mergeInto a a = a := by
  have := (merge_again ha).2
  rw [mergeVal_dict] at this
  exact Val.dict.inj this

namespace Ex

def mergeOriginal : List (Val × Val) :=
  [(.str c!"a", .int 1), (.str c!"b", .dict [(.str c!"x", .int 1), (.str c!"y", .list [.int 2])])]

def mergeAddition : List (Val × Val) :=
  [(.str c!"b", .dict [(.str c!"y", .int 3), (.str c!"z", .dict [(.int 7, .none)])]), (.str c!"c", .bool true)]

theorem mergeAddition_proper : Proper (.dict mergeAddition) := by
  refine .dict ?_ ?_ ?_
  · intro k v h; simp only [mergeAddition, List.mem_cons, Prod.mk.injEq, List.not_mem_nil, or_false] at h
    rcases h with ⟨rfl, _⟩ | ⟨rfl, _⟩ <;> exact ⟨rfl, rfl⟩
  · unfold DistinctKeys mergeAddition; simp [pyEq]
  · intro k v h; simp only [mergeAddition, List.mem_cons, Prod.mk.injEq, List.not_mem_nil, or_false] at h
    rcases h with ⟨_, rfl⟩ | ⟨_, rfl⟩
    · refine .dict ?_ ?_ ?_
      · intro k v h; simp only [List.mem_cons, Prod.mk.injEq, List.not_mem_nil, or_false] at h
        rcases h with ⟨rfl, _⟩ | ⟨rfl, _⟩ <;> exact ⟨rfl, rfl⟩
      · unfold DistinctKeys; simp [pyEq]
      · intro k v h; simp only [List.mem_cons, Prod.mk.injEq, List.not_mem_nil, or_false] at h
        rcases h with ⟨_, rfl⟩ | ⟨_, rfl⟩
        · exact .other (by simp)
        · refine .dict ?_ (by unfold DistinctKeys; simp) ?_
          · intro k v h; simp only [List.mem_cons, Prod.mk.injEq, List.not_mem_nil, or_false] at h
            rcases h with ⟨rfl, _⟩; exact ⟨rfl, by simp [pyEq, numOf, numEq]⟩
          · intro k v h; simp only [List.mem_cons, Prod.mk.injEq, List.not_mem_nil, or_false] at h
            rcases h with ⟨_, rfl⟩; exact .other (by simp)
    · exact .other (by simp)

end Ex

example : mergeInto Ex.mergeAddition Ex.mergeOriginal = [(.str c!"a", .int 1),
    (.str c!"b", .dict [(.str c!"x", .int 1), (.str c!"y", .int 3), (.str c!"z", .dict [(.int 7, .none)])]),
    (.str c!"c", .bool true)] := by
  simp [Ex.mergeAddition, Ex.mergeOriginal, mergeInto, mergeVal, dictSet, dictGet, pyEq]

example : getPath (.dict (mergeInto Ex.mergeAddition Ex.mergeOriginal)) [.str c!"b", .str c!"y"] = some (.int 3) :=
  (C48_paths _ _ Ex.mergeAddition_proper _ (by intro k hk; simp at hk; rcases hk with rfl | rfl <;> exact ⟨rfl, rfl⟩)).1 _ rfl
    (by rintro ⟨d, h⟩; cases h)

/-! ### Dotted paths -/

/-- C49: a value written is read back. -/
theorem C49_read_back (s s' : Val) (path : Str) (v : Val) (h : setNestedValue s path v = .ok s') :
    traverseToKey s' path = .ok v := by
  have hne : splitOn '.' path ≠ [] := by
    cases path with
    | nil => simp [splitOn]
    | cons c r => simp only [splitOn]; split; · simp
                  split <;> simp
  unfold setNestedValue traverseToKey at *
  generalize splitOn '.' path = p at *
  induction p generalizing s s' with
  | nil => exact (hne rfl).elim
  | cons k r ih =>
    cases s with
    | dict d =>
      cases r with
      | nil =>
        simp only [setSegs] at h
        cases h
        simp only [traverseSegs, dictGet_dictSet_self (pyEq_refl rfl : pyEq (.str k) (.str k) = true)]
      | cons k2 r =>
        simp only [setSegs] at h
        cases hd : dictGet d (.str k) with
        | none => rw [hd] at h; cases h
        | some x =>
          rw [hd] at h
          simp only at h
          cases hx : setSegs x (k2 :: r) v with
          | error e => rw [hx] at h; cases h
          | ok y =>
            rw [hx] at h
            cases h
            have := ih x y hx (by simp)
            rw [traverseSegs, dictGet_dictSet_self (pyEq_refl rfl : pyEq (.str k) (.str k) = true)]
            exact this
    | _ => simp only [setSegs] at h; cases h

/-- C49: other paths give what they gave before, errors included. -/
theorem C49_others (s s' : Val) (path other : Str) (v : Val) (h : setNestedValue s path v = .ok s')
    (h1 : ¬ splitOn '.' path <+: splitOn '.' other) (h2 : ¬ splitOn '.' other <+: splitOn '.' path) :
    traverseToKey s' other = traverseToKey s other := by
  unfold setNestedValue traverseToKey at *
  generalize splitOn '.' path = p at *
  generalize splitOn '.' other = q at *
  induction p generalizing s s' q with
  | nil => exact (h1 (List.nil_prefix)).elim
  | cons k r ih =>
    cases q with
    | nil => exact (h2 (List.nil_prefix)).elim
    | cons k' q =>
      cases s with
      | dict d =>
        cases r with
        | nil =>
          simp only [setSegs] at h
          cases h
          have hk : k' ≠ k := by rintro rfl; exact h1 ⟨q, rfl⟩
          simp only [traverseSegs, dictGet_dictSet_other (hk := (rfl : hashable (.str k) = true))
            (hn := (by rw [pyEq_str_str]; simpa using hk : pyEq (.str k') (.str k) = false))]
        | cons k2 r =>
          simp only [setSegs] at h
          cases hd : dictGet d (.str k) with
          | none => rw [hd] at h; cases h
          | some x =>
            rw [hd] at h
            simp only at h
            cases hx : setSegs x (k2 :: r) v with
            | error e => rw [hx] at h; cases h
            | ok y =>
              rw [hx] at h
              cases h
              by_cases hk : k' = k
              · subst hk
                simp only [traverseSegs, dictGet_dictSet_self (pyEq_refl rfl : pyEq (.str k') (.str k') = true), hd]
                exact ih x y hx q (fun hp => h1 (by simpa using hp)) (fun hp => h2 (by simpa using hp))
              · simp only [traverseSegs, dictGet_dictSet_other (hk := (rfl : hashable (.str k) = true))
                  (hn := (by rw [pyEq_str_str]; simpa using hk : pyEq (.str k') (.str k) = false))]
      | _ => simp only [setSegs] at h; cases h

theorem setSegs_failures (s v : Val) (p : List Str) (last : Str) (e : PyErr) :
    setSegs s (p ++ [last]) v = .error e ↔
      traverseSegs s p = .error e ∨ ∃ x, traverseSegs s p = .ok x ∧ ¬ IsDict x ∧ e = .typeError := by
  induction p generalizing s with
  | nil =>
    simp only [List.nil_append, traverseSegs]
    cases s with
    | dict d => simp [setSegs, IsDict]
    | _ =>
      simp only [setSegs, Except.error.injEq, reduceCtorEq, Except.ok.injEq, exists_eq_left', false_or, IsDict]
      constructor
      · rintro rfl; exact ⟨(by rintro ⟨d, h⟩; cases h), rfl⟩
      · rintro ⟨_, rfl⟩; rfl
  | cons k r ih =>
    cases s with
    | dict d =>
      have hne : ∃ k2 r2, r ++ [last] = k2 :: r2 := by
        cases r with
        | nil => exact ⟨_, _, rfl⟩
        | cons a b => exact ⟨_, _, rfl⟩
      obtain ⟨k2, r2, hr⟩ := hne
      have ih' := fun x => ih x
      rw [hr] at ih'
      rw [List.cons_append, hr]
      simp only [setSegs, traverseSegs]
      cases dictGet d (.str k) with
      | none => simp
      | some x =>
        simp only
        rw [← ih' x]
        cases setSegs x (k2 :: r2) v <;> simp [Except.map]
    | _ =>
      rw [List.cons_append]
      simp only [setSegs, traverseSegs, Except.error.injEq, reduceCtorEq, false_and, exists_false, or_false]

/-- C49: writing fails exactly as reading the path without its last segment does, or with a TypeError when what is
found there is no dict. -/
theorem C49_failures (s v : Val) (path : Str) (p : List Str) (last : Str) (hp : splitOn '.' path = p ++ [last]) (e : PyErr) :
    setNestedValue s path v = .error e ↔
      traverseSegs s p = .error e ∨ ∃ x, traverseSegs s p = .ok x ∧ ¬ IsDict x ∧ e = .typeError := by
  unfold setNestedValue
  rw [hp]
  exact setSegs_failures s v p last e

/-- The segments of a path are never empty, so `C49_failures` covers every path. -/
theorem splitOn_snoc (c : Char) (s : Str) : ∃ p last, splitOn c s = p ++ [last] := by
  have hne : splitOn c s ≠ [] := by
    cases s with
    | nil => simp [splitOn]
    | cons c r => simp only [splitOn]; split; · simp
                  split <;> simp
  exact ⟨_, _, (List.dropLast_concat_getLast hne).symm⟩

example : setNestedValue (.dict [(.str c!"a", .dict [(.str c!"b", .int 1)])]) c!"a.c" (.int 2) =
    .ok (.dict [(.str c!"a", .dict [(.str c!"b", .int 1), (.str c!"c", .int 2)])]) := by
  simp [setNestedValue, splitOn, setSegs, dictGet, dictSet, pyEq, Except.map]

example : traverseToKey (.dict [(.str c!"a", .dict [(.str c!"b", .int 1)])]) c!"a.b" = .ok (.int 1) := by
  simp [traverseToKey, splitOn, traverseSegs, dictGet, pyEq]

end Scheme
