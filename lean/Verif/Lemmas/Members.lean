import Verif.Lemmas.Struct

namespace Scheme

theorem memberInput_given (c : Common) (v : Val) (ph : Phase) (part : Bool) :
    memberInput c (some v) ph part = if c.ignoreNull && v.isNone then none else some v := by
  cases v <;> simp [memberInput, Val.isNone]

theorem memberInput_absent (c : Common) (ph : Phase) (part : Bool) :
    memberInput c none ph part =
      if part = true then none else if ph = .inbound ∧ (!c.default.isNone) = true then some c.default else none := by
  cases part <;> cases ph <;> cases h : c.default <;> simp [memberInput, Val.isNone, h]

theorem fieldOut_spec {env : Env} {rec : Proc} {ph : Phase} {ser : Bool} {anc : List Str} {name : Str}
    {field g : Field} {c : Common} {v : Val} (hg : resolve env field = some g) (hc : g.common? = some c) :
    fieldOut env rec ph ser anc name field v =
      if c.ignoreNull && v.isNone then .ok (none, true)
      else collect (rec g v ph ser (anc ++ ['.' :: name])) >>= fun x => .ok (some x.1, x.2) := by
  simp only [fieldOut, hg, hc]; rfl

theorem mkErr_struct_required (f : Field) (hf : (∃ c d s k, f = .structure c d s k) ∨ ∃ c d v s k, f = .poly c d v s k)
    (hp : plainErrors f) (anc : List Str) (s : Str) :
    ∃ t m, mkErr f .validation anc .none c!"required" [(c!"name", s)] =
      .structural ⟨.validation, anc, [errItem c!"required" t m], .none, .none⟩ := by
  rcases hf with ⟨_, _, _, _, rfl⟩ | ⟨_, _, _, _, _, rfl⟩ <;> exact mkErr_spec _ _ _ _ _ _ _ hp rfl rfl

theorem mkErr_struct_unknown (f : Field) (hf : (∃ c d s k, f = .structure c d s k) ∨ ∃ c d v s k, f = .poly c d v s k)
    (hp : plainErrors f) (anc : List Str) (s : Str) :
    ∃ t m, mkErr f .validation anc .none c!"unknown" [(c!"name", s)] =
      .structural ⟨.validation, anc, [errItem c!"unknown" t m], .none, .none⟩ := by
  rcases hf with ⟨_, _, _, _, rfl⟩ | ⟨_, _, _, _, _, rfl⟩ <;> exact mkErr_spec _ _ _ _ _ _ _ hp rfl rfl

theorem memberOut_input {env : Env} {rec : Proc} {f : Field} {d : List (Val × Val)}
    {defn : List (Str × Field)} {ph : Phase} {ser part : Bool} {anc : List Str} {name : Str}
    {g : Field} {c : Common} {v : Val} (hd : Declares env defn name g c)
    (hi : memberInput c (given d name) ph part = some v) :
    memberOut env rec f d defn ph ser part anc name =
      collect (rec g v ph ser (anc ++ ['.' :: name])) >>= fun x => .ok (some x.1, x.2) := by
  obtain ⟨field, hl, hg, hc⟩ := hd
  unfold memberOut
  simp only [hl, dictGet_str_eq_given]
  cases hgv : given d name with
  | some fv =>
    rw [hgv, memberInput_given] at hi
    simp only
    rw [fieldOut_spec hg hc]
    split at hi
    · simp at hi
    · rename_i h
      simp only [Option.some.injEq] at hi; subst hi
      rw [if_neg h]
  | none =>
    rw [hgv, memberInput_absent] at hi
    split at hi
    · simp at hi
    · rename_i hpart
      split at hi
      · rename_i hdef
        simp only [Option.some.injEq] at hi; subst hi
        have hpf : part = false := by simpa using hpart
        have hdn : c.default.isNone = false := by simpa using hdef.2
        simp only [hpf, Bool.false_eq_true, if_false, hg, Option.bind_some, hc, hdef, and_self, if_true]
        rw [fieldOut_spec hg hc, hdn, Bool.and_false]
        simp
      · simp at hi

theorem memberOut_missing {env : Env} {rec : Proc} {f : Field} {d : List (Val × Val)}
    {defn : List (Str × Field)} {ph : Phase} {ser part : Bool} {anc : List Str} {name : Str}
    {g : Field} {c : Common} (hd : Declares env defn name g c)
    (hi : memberMissing c (given d name) ph part) :
    memberOut env rec f d defn ph ser part anc name =
      match mkErr f .validation anc .none c!"required" [(c!"name", name)] with
      | .structural e => .ok (some e.toVal, false)
      | e => .error e := by
  obtain ⟨field, hl, hg, hc⟩ := hd
  obtain ⟨hgv, rfl, hr, hi⟩ := hi
  unfold memberOut
  simp only [hl, dictGet_str_eq_given, hgv, hg, hc, hr, Option.bind_some, if_true, Bool.false_eq_true, if_false]
  rw [hgv, memberInput_absent] at hi
  simp only [Bool.false_eq_true, if_false] at hi
  split at hi
  · simp at hi
  · rename_i h; rw [if_neg h]
    cases mkErr f .validation anc .none c!"required" [(c!"name", name)] <;> rfl

theorem memberOut_skip {env : Env} {rec : Proc} {f : Field} {d : List (Val × Val)}
    {defn : List (Str × Field)} {ph : Phase} {ser part : Bool} {anc : List Str} {name : Str}
    {g : Field} {c : Common} (hd : Declares env defn name g c)
    (hi : memberInput c (given d name) ph part = none) (hm : ¬ memberMissing c (given d name) ph part) :
    memberOut env rec f d defn ph ser part anc name = .ok (none, true) := by
  obtain ⟨field, hl, hg, hc⟩ := hd
  unfold memberOut
  simp only [hl, dictGet_str_eq_given]
  cases hgv : given d name with
  | some fv =>
    rw [hgv, memberInput_given] at hi
    simp only
    rw [fieldOut_spec hg hc]
    split at hi
    · rename_i h; rw [if_pos h]
    · simp at hi
  | none =>
    have hi' := hi
    rw [hgv, memberInput_absent] at hi
    cases part with
    | true => simp
    | false =>
      simp only [Bool.false_eq_true, if_false] at hi ⊢
      simp only [hg, hc, Option.bind_some]
      split at hi
      · simp at hi
      · rename_i h
        rw [if_neg h]
        cases hr : c.required with
        | false => simp
        | true => exact absurd ⟨hgv, rfl, hr, hi'⟩ hm

theorem processStructure_dict {env : Env} {rec : Proc} {c : Common} {defn : List (Str × Field)}
    {strict : Bool} {ko : List Str} {part : Bool} {d : List (Val × Val)} {ph : Phase} {ser : Bool}
    {anc : List Str} (hpre : c.pre = none) (ha : anc ≠ []) :
    processStructure env rec c defn strict ko part (.dict d) ph ser anc =
      structBody env rec (.structure c defn strict ko) strict
        (if ko.isEmpty then defn.map (·.1) else ko) defn d ph ser part anc := by
  have hn : isNull (.structure c defn strict ko) (.dict d) anc = .ok false :=
    isNull_nonEnum rfl (by simp) (by simp)
  unfold processStructure
  simp only [ancOr_ne ha, hn, structPre, hpre, except_bind_ok, Bool.false_eq_true, if_false]

theorem leftover_nil {order : List Str} {d : List (Val × Val)} :
    leftover order d = [] ↔ ∀ e ∈ d, ∃ name ∈ order, e.1 = .str name := by
  unfold leftover
  rw [List.filter_eq_nil_iff]
  simp only [List.mem_map, forall_exists_index, and_imp, forall_apply_eq_imp_iff₂, Bool.not_eq_true,
    List.all_eq_false, Bool.not_eq_eq_eq_not, Bool.not_true, Bool.not_eq_false, pyEq_str_left]

/-- Membership of the leftover keys. -/
theorem mem_leftover {order : List Str} {d : List (Val × Val)} {k : Val} :
    k ∈ leftover order d ↔ (∃ e ∈ d, e.1 = k) ∧ ∀ name ∈ order, k ≠ .str name := by
  unfold leftover
  rw [List.mem_filter]
  simp only [List.mem_map, List.all_eq_true, Bool.not_eq_eq_eq_not, Bool.not_true]
  constructor
  · rintro ⟨h, h2⟩
    refine ⟨h, fun n hn hk => ?_⟩
    have := h2 n hn
    rw [hk, pyEq_str_str] at this; simp at this
  · rintro ⟨h, h2⟩
    refine ⟨h, fun n hn => ?_⟩
    cases hp : pyEq (.str n) k with
    | false => rfl
    | true => exact absurd ((pyEq_str_left _ _).1 hp) (h2 n hn)

end Scheme
