import Verif.Props.Sequence

/-! C10: tuples.  C07 for tuples. -/

namespace Scheme

theorem processTuple_body {env : Env} {rec : Proc} {c : Common} {values : List Field}
    {v : Val} {l : List Val} (hv : v = .list l ∨ v = .tuple l) {ph : Phase} {ser : Bool} {anc : List Str}
    (hpre : c.pre = none) (ha : anc ≠ []) :
    processTuple env rec c values v ph ser anc =
      (if l.length ≠ values.length then
        .error (mkErr (.tuple c values) .validation anc v c!"length" [(c!"length", natStr values.length)])
      else
        collectAll ((values.zip l).mapIdx fun j x => callChild env rec x.1 x.2 ph ser (anc ++ [idxStep j])) >>= fun r =>
        if r.2 then .ok (.tuple r.1) else .error (.structural ⟨.validation, anc, [], .list r.1, v⟩)) := by
  have hn : isNull (.tuple c values) v anc = .ok false :=
    isNull_nonEnum rfl (by simp) (by rcases hv with rfl | rfl <;> simp)
  unfold processTuple
  simp only [ancOr_ne ha, hn, rawPre, hpre, tupLoop_eq, Nat.zero_add, except_bind_ok, Bool.false_eq_true,
    if_false, except_throw, except_pure]
  rcases hv with rfl | rfl <;> by_cases h : l.length ≠ values.length <;> simp [h]

/-- C10. Exactly when, and with what result, a tuple field accepts a list or tuple: the length is the
number of declared fields, and the result is the tuple of the fields' results, position by position. -/
theorem C10_tuple_accepts_iff (env : Env) (n : Nat) (c : Common) (values : List Field)
    (hpre : c.pre = none) (v : Val) (l : List Val) (hv : v = .list l ∨ v = .tuple l) (w : Val)
    (ph : Phase) (ser : Bool) (anc : List Str) (ha : anc ≠ []) :
    process env (n + 1) (.tuple c values) v ph ser anc = .ok w ↔
      l.length = values.length ∧ ∃ rs, w = .tuple rs ∧ rs.length = l.length ∧
        ∀ i f x, values[i]? = some f → l[i]? = some x → ∃ g r, resolve env f = some g ∧ rs[i]? = some r ∧
          process env n g x ph ser (anc ++ [c!"[" ++ natStr i ++ c!"]"]) = .ok r := by
  show processTuple env (process env n) c values v ph ser anc = .ok w ↔ _
  rw [processTuple_body hv hpre ha]
  by_cases hlen : l.length = values.length
  rotate_left
  · rw [if_pos hlen]
    constructor
    · intro h; simp only [mkErr] at h; split at h <;> try split at h
      all_goals simp at h
    · rintro ⟨h, _⟩; exact absurd h hlen
  rw [if_neg (by simpa using hlen), except_bind_eq_ok]
  have key : ∀ rs : List Val, collectAll ((values.zip l).mapIdx fun j x =>
        callChild env (process env n) x.1 x.2 ph ser (anc ++ [idxStep j])) = .ok (rs, true) ↔
      rs.length = l.length ∧
        ∀ i f x, values[i]? = some f → l[i]? = some x → ∃ g r, resolve env f = some g ∧ rs[i]? = some r ∧
          process env n g x ph ser (anc ++ [c!"[" ++ natStr i ++ c!"]"]) = .ok r := by
    intro rs
    rw [collectAll_ok_true]
    have hz : (values.zip l).length = l.length := by simp [hlen]
    constructor
    · intro h
      have hl : rs.length = l.length := by
        have := congrArg List.length h
        simp only [List.length_mapIdx, List.length_map] at this; omega
      refine ⟨hl, fun i f x hf hx => ?_⟩
      have := congrArg (fun t => t[i]?) h
      have hzi : (values.zip l)[i]? = some (f, x) := by
        rw [List.getElem?_zip_eq_some]; exact ⟨hf, hx⟩
      simp only [List.getElem?_mapIdx, hzi, Option.map_some, List.getElem?_map] at this
      cases hr : rs[i]? with
      | none => simp [hr] at this
      | some r =>
        simp only [hr, Option.map_some, Option.some.injEq] at this
        unfold callChild at this
        cases hres : resolve env f with
        | none => simp [hres] at this
        | some g => rw [hres] at this; exact ⟨g, r, rfl, rfl, this⟩
    · rintro ⟨hl, h⟩
      apply List.ext_getElem?
      intro i
      simp only [List.getElem?_mapIdx, List.getElem?_map]
      cases hx : (values.zip l)[i]? with
      | none =>
        have : rs[i]? = none := by
          rw [List.getElem?_eq_none_iff] at hx ⊢; omega
        simp [this]
      | some x =>
        obtain ⟨f, x⟩ := x
        rw [List.getElem?_zip_eq_some] at hx
        obtain ⟨g, r, hg, hr, hp⟩ := h i f x hx.1 hx.2
        simp only [hr, Option.map_some, callChild, hg]
        exact congrArg some hp
  constructor
  · rintro ⟨⟨rs, b⟩, hr, h⟩
    cases b with
    | false => simp at h
    | true => 
      simp only [if_true, Except.ok.injEq] at h
      exact ⟨hlen, rs, h.symm, (key rs).1 hr⟩
  · rintro ⟨_, rs, rfl, h⟩
    exact ⟨(rs, true), (key rs).2 h, by simp⟩

example : process Ex.env 2 (.tuple {} [.leaf {} .boolean, Ex.int]) (.list [.bool true, .int 3])
    .inbound false [c!"t"] = .ok (.tuple [.bool true, .int 3]) := rfl

/-- C10. A list or tuple of any other length is reported as 'length'. -/
theorem C10_length (env : Env) (n : Nat) (c : Common) (values : List Field)
    (hpre : c.pre = none) (hp : plainErrors (.tuple c values)) (v : Val) (l : List Val)
    (hv : v = .list l ∨ v = .tuple l) (hl : l.length ≠ values.length)
    (ph : Phase) (ser : Bool) (anc : List Str) (ha : anc ≠ []) :
    Raises (process env (n + 1) (.tuple c values) v ph ser anc) .validation anc v c!"length" := by
  show Raises (processTuple env (process env n) c values v ph ser anc) _ _ _ _
  rw [processTuple_body hv hpre ha, if_pos hl]
  exact mkErr_class _ _ _ _ _ _ hp ⟨_, rfl, rfl⟩

/-- C10. Anything else but null is a type error. -/
theorem C10_not_a_tuple (env : Env) (n : Nat) (c : Common) (values : List Field)
    (hp : plainErrors (.tuple c values)) (v : Val) (hv : v ≠ .none)
    (hl : ∀ l, v ≠ .list l ∧ v ≠ .tuple l) (ph : Phase) (ser : Bool) (anc : List Str) (ha : anc ≠ []) :
    Raises (process env (n + 1) (.tuple c values) v ph ser anc) .invalidType anc v c!"invalid" := by
  show Raises (processTuple env (process env n) c values v ph ser anc) _ _ _ _
  have hn : isNull (.tuple c values) v anc = .ok false := isNull_nonEnum rfl (by simp) hv
  unfold processTuple
  simp only [ancOr_ne ha, hn, except_bind_ok]
  cases v <;> first
    | exact absurd rfl (hl _).1
    | exact absurd rfl (hl _).2
    | exact mkErr_class _ _ _ _ _ _ hp ⟨_, rfl, rfl⟩

example : ∀ l, Val.str c!"ab" ≠ .list l ∧ Val.str c!"ab" ≠ .tuple l := by simp

/-- C07 for tuples: see `C07_sequence_report`. -/
theorem C07_tuple_report (env : Env) (n : Nat) (c : Common) (values : List Field)
    (hpre : c.pre = none) (v : Val) (l : List Val) (hv : v = .list l ∨ v = .tuple l)
    (hlen : l.length = values.length) (ph : Phase) (ser : Bool) (anc : List Str) (ha : anc ≠ [])
    (outs : List Val) (holen : outs.length = l.length)
    (houts : ∀ i f x, values[i]? = some f → l[i]? = some x → ∃ g, resolve env f = some g ∧
      ((∃ r, outs[i]? = some r ∧
        process env n g x ph ser (anc ++ [c!"[" ++ natStr i ++ c!"]"]) = .ok r) ∨
      (∃ e, outs[i]? = some (.exc e.cls e.identity e.errors e.struct e.value) ∧
        process env n g x ph ser (anc ++ [c!"[" ++ natStr i ++ c!"]"]) = .error (.structural e))))
    (hbad : ∃ i f g x e, values[i]? = some f ∧ resolve env f = some g ∧ l[i]? = some x ∧
        process env n g x ph ser (anc ++ [c!"[" ++ natStr i ++ c!"]"]) = .error (.structural e)) :
    process env (n + 1) (.tuple c values) v ph ser anc =
      .error (.structural ⟨.validation, anc, [], .list outs, v⟩) := by
  show processTuple env (process env n) c values v ph ser anc = _
  have hstep : ∀ j, idxStep j = c!"[" ++ natStr j ++ c!"]" := fun _ => rfl
  have hc : collectAll ((values.zip l).mapIdx fun j x =>
      callChild env (process env n) x.1 x.2 ph ser (anc ++ [idxStep j])) = .ok (outs, false) := by
    simp only [hstep]
    rw [collectAll_eq_ok]
    refine ⟨?_, ?_⟩
    · intro x hx
      obtain ⟨i, hi⟩ := List.getElem?_of_mem hx
      rw [List.getElem?_mapIdx] at hi
      cases hv : (values.zip l)[i]? with
      | none => simp [hv] at hi
      | some v =>
        obtain ⟨f, v⟩ := v
        simp only [hv, Option.map_some, Option.some.injEq] at hi
        rw [List.getElem?_zip_eq_some] at hv
        obtain ⟨g, hg, h⟩ := houts i f v hv.1 hv.2
        rw [← hi, callChild, hg]
        rcases h with ⟨r, _, h⟩ | ⟨e, _, h⟩ <;> simp only [h] <;> trivial
    · rw [Prod.mk.injEq]
      constructor
      · apply List.ext_getElem?
        intro i
        rw [List.getElem?_map, List.getElem?_mapIdx]
        cases hv : (values.zip l)[i]? with
        | none =>
          have : outs[i]? = none := by
            rw [List.getElem?_eq_none_iff] at hv ⊢
            simp only [List.length_zip] at hv; omega
          simp [this]
        | some v =>
          obtain ⟨f, v⟩ := v
          rw [List.getElem?_zip_eq_some] at hv
          obtain ⟨g, hg, h⟩ := houts i f v hv.1 hv.2
          simp only [Option.map_some, callChild, hg]
          rcases h with ⟨r, h1, h⟩ | ⟨e, h1, h⟩ <;> rw [h1, h] <;> rfl
      · obtain ⟨i, f, g, x, e, hf, hg, hx, he⟩ := hbad
        symm
        rw [List.all_eq_false]
        refine ⟨.error (.structural e), ?_, by simp [isOk]⟩
        apply List.mem_of_getElem? (i := i)
        have : (values.zip l)[i]? = some (f, x) := by rw [List.getElem?_zip_eq_some]; exact ⟨hf, hx⟩
        rw [List.getElem?_mapIdx, this, Option.map_some]
        simp only [callChild, hg]
        exact congrArg some he
  rw [processTuple_body hv hpre ha, hc, if_neg (by simpa using hlen)]
  rfl

end Scheme
