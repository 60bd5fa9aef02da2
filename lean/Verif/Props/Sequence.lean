import Verif.Lemmas.Seq
import Verif.Spec.Examples

/-! C09: sequences.  C07 for sequences. -/

namespace Scheme

theorem mapIdx_eq_map_ok {l : List Val} {rs : List Val} {g : Nat → Val → Except Exn Val} :
    l.mapIdx g = rs.map Except.ok ↔
      rs.length = l.length ∧ ∀ i x, l[i]? = some x → ∃ r, rs[i]? = some r ∧ g i x = .ok r := by
  constructor
  · intro h
    have hl : rs.length = l.length := by
      have := congrArg List.length h; simpa using this.symm
    refine ⟨hl, fun i x hx => ?_⟩
    have := congrArg (fun t => t[i]?) h
    simp only [List.getElem?_mapIdx, hx, Option.map_some, List.getElem?_map] at this
    cases hr : rs[i]? with
    | none => simp [hr] at this
    | some r => simp only [hr, Option.map_some, Option.some.injEq] at this; exact ⟨r, rfl, this⟩
  · rintro ⟨hl, h⟩
    apply List.ext_getElem?
    intro i
    simp only [List.getElem?_mapIdx, List.getElem?_map]
    cases hx : l[i]? with
    | none =>
      have : rs[i]? = none := by
        rw [List.getElem?_eq_none_iff] at hx ⊢; omega
      simp [this]
    | some x =>
      obtain ⟨r, hr, hg⟩ := h i x hx
      simp [hr, hg]

/-- C09. Exactly when, and with what result, a sequence accepts a list: the length bounds hold
(inclusively), every element is accepted by the item field, the result lists the item results in
order, and with `unique` all results are hashable and pairwise different. -/
theorem C09_sequence_accepts_iff (env : Env) (n : Nat) (c : Common) (item g : Field)
    (mn mx : Option Nat) (u : Bool) (hpre : c.pre = none) (hg : resolve env item = some g)
    (l : List Val) (w : Val) (ph : Phase) (ser : Bool) (anc : List Str) (ha : anc ≠ []) :
    process env (n + 1) (.sequence c item mn mx u) (.list l) ph ser anc = .ok w ↔
      ∃ rs, w = .list rs ∧ rs.length = l.length ∧
        (∀ m, mn = some m → m ≤ l.length) ∧ (∀ m, mx = some m → l.length ≤ m) ∧
        (∀ i x, l[i]? = some x → ∃ r, rs[i]? = some r ∧
          process env n g x ph ser (anc ++ [c!"[" ++ natStr i ++ c!"]"]) = .ok r) ∧
        (u = true → (∀ r ∈ rs, hashable r = true) ∧ rs.Pairwise fun a b => pyEq a b = false) := by
  show processSequence env (process env n) c item mn mx u (.list l) ph ser anc = .ok w ↔ _
  rw [processSequence_list hpre ha]
  have hcall : ∀ v a, callChild env (process env n) item v ph ser a = process env n g v ph ser a := by
    intro v a; simp [callChild, hg]
  simp only [hcall]
  have hstep : ∀ j, idxStep j = c!"[" ++ natStr j ++ c!"]" := fun _ => rfl
  simp only [hstep]
  by_cases h1 : violates (fun m => decide (l.length < m)) mn = true
  · rw [if_pos h1]
    constructor
    · intro h; simp only [mkErr] at h; split at h <;> try split at h
      all_goals simp at h
    · rintro ⟨rs, -, -, hmn, -⟩
      cases mn with
      | none => simp at h1
      | some m => have := hmn m rfl; simp at h1; omega
  rw [if_neg h1]
  by_cases h2 : violates (fun m => decide (l.length > m)) mx = true
  · rw [if_pos h2]
    constructor
    · intro h; simp only [mkErr] at h; split at h <;> try split at h
      all_goals simp at h
    · rintro ⟨rs, -, -, -, hmx, -⟩
      cases mx with
      | none => simp at h2
      | some m => have := hmx m rfl; simp at h2; omega
  rw [if_neg h2]
  have hmn : ∀ m, mn = some m → m ≤ l.length := by
    rintro m rfl; simpa using h1
  have hmx : ∀ m, mx = some m → l.length ≤ m := by
    rintro m rfl; simpa using h2
  rw [except_bind_eq_ok]
  constructor
  · rintro ⟨⟨rs, b⟩, hr, h⟩
    cases b with
    | false => simp at h
    | true =>
      rw [collectAll_ok_true, mapIdx_eq_map_ok] at hr
      simp only [Bool.true_eq_false, if_false] at h
      cases u with
      | false =>
        simp only [Bool.false_eq_true, if_false, Except.ok.injEq] at h
        exact ⟨rs, h.symm, hr.1, hmn, hmx, hr.2, by simp⟩
      | true =>
        simp only [if_true] at h
        split at h
        · split at h
          · rename_i h3 h4
            simp only [Except.ok.injEq] at h
            exact ⟨rs, h.symm, hr.1, hmn, hmx, hr.2, fun _ => ⟨List.all_eq_true.1 h3, (allDistinct_iff _).1 h4⟩⟩
          · simp at h
        · simp at h
  · rintro ⟨rs, rfl, hl, -, -, hr, hu⟩
    refine ⟨(rs, true), ?_, ?_⟩
    · rw [collectAll_ok_true, mapIdx_eq_map_ok]; exact ⟨hl, hr⟩
    · cases u with
      | false => simp
      | true =>
        obtain ⟨h3, h4⟩ := hu rfl
        simp [List.all_eq_true.2 h3, (allDistinct_iff _).2 h4]

example : process Ex.env 2 (.sequence {} (.leaf {} .boolean) (some 2) (some 2) true)
    (.list [.bool true, .bool false]) .inbound false [c!"s"] = .ok (.list [.bool true, .bool false]) := rfl

theorem mkErr_class (f : Field) (cls : ErrCls) (anc : List Str) (v : Val) (tok : Str)
    (params : List (Str × Str)) (hp : plainErrors f)
    (h : ∃ e, f.classErrors.find? (·.token == tok) = some e ∧ refsOk (params.map (·.1)) e.message = true) :
    Raises (.error (mkErr f cls anc v tok params)) cls anc v tok := by
  obtain ⟨e, h1, h2⟩ := h
  obtain ⟨t, m, hm⟩ := mkErr_spec f cls anc v tok params e hp h1 h2
  exact ⟨t, m, by rw [hm]⟩

/-- C09. Too short a list is reported as 'min_length', whatever its items are. -/
theorem C09_min_length (env : Env) (n : Nat) (c : Common) (item : Field) (m : Nat) (mx : Option Nat)
    (u : Bool) (hpre : c.pre = none) (hp : plainErrors (.sequence c item (some m) mx u)) (l : List Val)
    (hl : l.length < m) (ph : Phase) (ser : Bool) (anc : List Str) (ha : anc ≠ []) :
    Raises (process env (n + 1) (.sequence c item (some m) mx u) (.list l) ph ser anc)
      .validation anc (.list l) c!"min_length" := by
  show Raises (processSequence env (process env n) c item (some m) mx u (.list l) ph ser anc) _ _ _ _
  rw [processSequence_list hpre ha, if_pos (by simpa using hl)]
  exact mkErr_class _ _ _ _ _ _ hp ⟨_, rfl, rfl⟩

/-- C09. Too long a list is reported as 'max_length', whatever its items are. -/
theorem C09_max_length (env : Env) (n : Nat) (c : Common) (item : Field) (mn : Option Nat) (m : Nat)
    (u : Bool) (hpre : c.pre = none) (hp : plainErrors (.sequence c item mn (some m) u)) (l : List Val)
    (hm : ∀ k, mn = some k → k ≤ l.length)
    (hl : m < l.length) (ph : Phase) (ser : Bool) (anc : List Str) (ha : anc ≠ []) :
    Raises (process env (n + 1) (.sequence c item mn (some m) u) (.list l) ph ser anc)
      .validation anc (.list l) c!"max_length" := by
  show Raises (processSequence env (process env n) c item mn (some m) u (.list l) ph ser anc) _ _ _ _
  rw [processSequence_list hpre ha, if_neg, if_pos (by simpa using hl)]
  · exact mkErr_class _ _ _ _ _ _ hp ⟨_, rfl, rfl⟩
  · cases mn with
    | none => simp
    | some k => have := hm k rfl; simp; exact this

/-- C09. Anything that is neither a list nor null is rejected as a type error. -/
theorem C09_not_a_list (env : Env) (n : Nat) (c : Common) (item : Field) (mn mx : Option Nat)
    (u : Bool) (hp : plainErrors (.sequence c item mn mx u)) (v : Val) (hv : v ≠ .none)
    (hl : ∀ l, v ≠ .list l) (ph : Phase) (ser : Bool) (anc : List Str) (ha : anc ≠ []) :
    Raises (process env (n + 1) (.sequence c item mn mx u) v ph ser anc)
      .invalidType anc v c!"invalid" := by
  show Raises (processSequence env (process env n) c item mn mx u v ph ser anc) _ _ _ _
  have hn : isNull (.sequence c item mn mx u) v anc = .ok false := isNull_nonEnum rfl (by simp) hv
  unfold processSequence
  simp only [ancOr_ne ha, hn, except_bind_ok]
  cases v <;> first | exact absurd rfl (hl _) | exact mkErr_class _ _ _ _ _ _ hp ⟨_, rfl, rfl⟩

/-- C09. With `unique`, two equal results among accepted items are reported as 'duplicate'. -/
theorem C09_duplicate (env : Env) (n : Nat) (c : Common) (item g : Field) (mn mx : Option Nat)
    (hpre : c.pre = none) (hg : resolve env item = some g)
    (hp : plainErrors (.sequence c item mn mx true)) (l rs : List Val)
    (hmn : ∀ m, mn = some m → m ≤ l.length) (hmx : ∀ m, mx = some m → l.length ≤ m)
    (ph : Phase) (ser : Bool) (anc : List Str) (ha : anc ≠ []) (hlen : rs.length = l.length)
    (hrs : ∀ i x, l[i]? = some x → ∃ r, rs[i]? = some r ∧
          process env n g x ph ser (anc ++ [c!"[" ++ natStr i ++ c!"]"]) = .ok r)
    (hh : ∀ r ∈ rs, hashable r = true) (i j : Nat) (a b : Val) (hij : i < j) (hi : rs[i]? = some a)
    (hj : rs[j]? = some b) (hab : pyEq a b = true) :
    Raises (process env (n + 1) (.sequence c item mn mx true) (.list l) ph ser anc)
      .validation anc (.list l) c!"duplicate" := by
  show Raises (processSequence env (process env n) c item mn mx true (.list l) ph ser anc) _ _ _ _
  have hcall : ∀ v a, callChild env (process env n) item v ph ser a = process env n g v ph ser a := by
    intro v a; simp [callChild, hg]
  have hc : collectAll (l.mapIdx fun j v => callChild env (process env n) item v ph ser (anc ++ [idxStep j]))
      = .ok (rs, true) := by
    rw [collectAll_ok_true, mapIdx_eq_map_ok]
    exact ⟨hlen, fun i x hx => by rw [hcall]; exact hrs i x hx⟩
  have hd : allDistinct rs = false := by
    cases hd : allDistinct rs with
    | false => rfl
    | true =>
      rw [allDistinct_iff, List.pairwise_iff_getElem] at hd
      obtain ⟨hi', rfl⟩ := List.getElem?_eq_some_iff.1 hi
      obtain ⟨hj', rfl⟩ := List.getElem?_eq_some_iff.1 hj
      have := hd i j hi' hj' hij
      simp [this] at hab
  rw [processSequence_list hpre ha, hc, if_neg, if_neg]
  · simp only [except_bind_ok, Bool.true_eq_false, if_false, if_true, List.all_eq_true.2 hh, hd,
      Bool.false_eq_true]
    exact mkErr_class _ _ _ _ _ _ hp ⟨_, rfl, rfl⟩
  · cases mx with
    | none => simp
    | some k => have := hmx k rfl; simp; exact this
  · cases mn with
    | none => simp
    | some k => have := hmn k rfl; simp; exact this

example : Raises (process Ex.env 2 (.sequence {} Ex.int none none true) (.list [.int 3, .int 4, .int 3])
    .inbound false [c!"s"]) .validation [c!"s"] (.list [.int 3, .int 4, .int 3]) c!"duplicate" :=
  C09_duplicate _ _ _ _ Ex.int _ _ rfl rfl (by simp [plainErrors, Field.common?]) _
    [.int 3, .int 4, .int 3] (by simp) (by simp) _ _ _ (by simp) rfl
    (by
      intro i x h
      match i, h with
      | 0, h => simp at h; subst h; exact ⟨_, rfl, rfl⟩
      | 1, h => simp at h; subst h; exact ⟨_, rfl, rfl⟩
      | 2, h => simp at h; subst h; exact ⟨_, rfl, rfl⟩
      | k + 3, h => simp at h)
    (by simp [hashable]) 0 2 (.int 3) (.int 3) (by decide) rfl rfl rfl

/-- C09/C26. With `unique`, an accepted but unhashable item makes the code raise a raw TypeError. -/
theorem C09_unhashable_counterexample :
    process Ex.env 3 (.sequence {} (.sequence {} Ex.int none none false) none none true)
      (.list [.list []]) .inbound false [c!"s"] = .error (.py .typeError) := rfl

/-- C07 for sequences. If some item fails, and all failures are structural errors, the error raised
sits at the sequence, has no entry of its own, and lists for every position the item's own error
object or its processed value, in order. -/
theorem C07_sequence_report (env : Env) (n : Nat) (c : Common) (item g : Field) (mn mx : Option Nat)
    (u : Bool) (hpre : c.pre = none) (hg : resolve env item = some g) (l : List Val)
    (hmn : ∀ m, mn = some m → m ≤ l.length) (hmx : ∀ m, mx = some m → l.length ≤ m)
    (ph : Phase) (ser : Bool) (anc : List Str) (ha : anc ≠ []) (outs : List Val)
    (hlen : outs.length = l.length)
    (houts : ∀ i x, l[i]? = some x →
      (∃ r, outs[i]? = some r ∧
        process env n g x ph ser (anc ++ [c!"[" ++ natStr i ++ c!"]"]) = .ok r) ∨
      (∃ e, outs[i]? = some (.exc e.cls e.identity e.errors e.struct e.value) ∧
        process env n g x ph ser (anc ++ [c!"[" ++ natStr i ++ c!"]"]) = .error (.structural e)))
    (hbad : ∃ i x e, l[i]? = some x ∧
        process env n g x ph ser (anc ++ [c!"[" ++ natStr i ++ c!"]"]) = .error (.structural e)) :
    process env (n + 1) (.sequence c item mn mx u) (.list l) ph ser anc =
      .error (.structural ⟨.validation, anc, [], .list outs, .list l⟩) := by
  show processSequence env (process env n) c item mn mx u (.list l) ph ser anc = _
  have hcall : ∀ v a, callChild env (process env n) item v ph ser a = process env n g v ph ser a := by
    intro v a; simp [callChild, hg]
  have hstep : ∀ j, idxStep j = c!"[" ++ natStr j ++ c!"]" := fun _ => rfl
  have hc : collectAll (l.mapIdx fun j v => callChild env (process env n) item v ph ser (anc ++ [idxStep j]))
      = .ok (outs, false) := by
    simp only [hcall, hstep]
    rw [collectAll_eq_ok]
    refine ⟨?_, ?_⟩
    · intro x hx
      obtain ⟨i, hi⟩ := List.getElem?_of_mem hx
      rw [List.getElem?_mapIdx] at hi
      cases hv : l[i]? with
      | none => simp [hv] at hi
      | some v =>
        simp only [hv, Option.map_some, Option.some.injEq] at hi
        rcases houts i v hv with ⟨r, _, h⟩ | ⟨e, _, h⟩ <;> rw [← hi, h] <;> trivial
    · rw [Prod.mk.injEq]
      constructor
      · apply List.ext_getElem?
        intro i
        rw [List.getElem?_map, List.getElem?_mapIdx]
        cases hv : l[i]? with
        | none =>
          have : outs[i]? = none := by rw [List.getElem?_eq_none_iff] at hv ⊢; omega
          simp [this]
        | some v =>
          simp only [Option.map_some]
          rcases houts i v hv with ⟨r, h1, h⟩ | ⟨e, h1, h⟩ <;> rw [h1, h] <;> rfl
      · obtain ⟨i, x, e, hx, he⟩ := hbad
        symm
        rw [List.all_eq_false]
        refine ⟨.error (.structural e), ?_, by simp [isOk]⟩
        apply List.mem_of_getElem? (i := i)
        rw [List.getElem?_mapIdx, hx, Option.map_some, he]
  rw [processSequence_list hpre ha, hc, if_neg, if_neg]
  · rfl
  · cases mx with
    | none => simp
    | some k => have := hmx k rfl; simp; exact this
  · cases mn with
    | none => simp
    | some k => have := hmn k rfl; simp; exact this

end Scheme
