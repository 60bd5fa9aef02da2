import Verif.Spec.Describe
import Verif.Props.Edit
import Verif.Props.Surrogate
import Verif.Props.Recursion

/-! Lemmas about descriptions and the arguments read from them. -/

namespace Scheme

/-- `v` describes itself, and is read back as the argument `a`. -/
structure Reads (env : Env) (v : Val) (a : Arg) : Prop where
  desc : descParam env v = .ok v
  read : ∀ m, v.depth < m → constructArg env m v = .ok a

theorem Reads.unique {env : Env} {v : Val} {a b : Arg} (h : Reads env v a) (h' : Reads env v b) : a = b := by
  have := (h.read _ (Nat.lt_succ_self _)).symm.trans (h'.read _ (Nat.lt_succ_self _))
  simpa using this

section
variable {env : Env}

theorem descItems_self {l : List Val} (h : ∀ v ∈ l, descParam env v = .ok v) : descItems env l = .ok l := by
  induction l with
  | nil => simp [descItems]
  | cons v r ih =>
    simp only [descItems, h v (List.mem_cons_self ..), ih fun v hv => h v (List.mem_cons_of_mem _ hv)]
    rfl

theorem descEntries_self {d : List (Val × Val)} (h : ∀ e ∈ d, descParam env e.2 = .ok e.2) : descEntries env d = .ok d := by
  induction d with
  | nil => simp [descEntries]
  | cons e r ih =>
    obtain ⟨k, v⟩ := e
    simp only [descEntries, h _ (List.mem_cons_self ..), ih fun v hv => h v (List.mem_cons_of_mem _ hv)]
    rfl

theorem constructItems_self {rec : ArgRec} {l : List Val} (h : ∀ v ∈ l, rec v = .ok (.val v)) :
    constructItems rec l = .ok (l.map .val) := by
  induction l with
  | nil => rfl
  | cons v r ih =>
    simp only [constructItems, h v (List.mem_cons_self ..), ih fun v hv => h v (List.mem_cons_of_mem _ hv)]
    rfl

theorem constructEntries_self {rec : ArgRec} {d : List (Val × Val)} (h : ∀ e ∈ d, rec e.2 = .ok (.val e.2)) :
    constructEntries rec d = .ok (d.map fun e => (e.1, .val e.2)) := by
  induction d with
  | nil => rfl
  | cons e r ih =>
    obtain ⟨k, v⟩ := e
    simp only [constructEntries, h _ (List.mem_cons_self ..), ih fun v hv => h v (List.mem_cons_of_mem _ hv)]
    rfl

theorem argVals_vals (l : List Val) : argVals (l.map .val) = some l := by
  induction l with
  | nil => rfl
  | cons v r ih => simp [argVals, Arg.val?, ih]

theorem argEntries_vals (d : List (Val × Val)) : argEntries (d.map fun e => (e.1, .val e.2)) = some d := by
  induction d with
  | nil => rfl
  | cons v r ih => simp [argEntries, Arg.val?, ih]

theorem noFieldtype {d : List (Val × Val)} (h : ∀ e ∈ d, e.1 ≠ .str c!"fieldtype") :
    dictGet d (.str c!"fieldtype") = none := by
  rw [dictGet_str_none]
  intro hm
  obtain ⟨e, he, hk⟩ := List.mem_map.1 hm
  exact h e he hk

theorem construct_list {m : Nat} {l : List Val} {a : List Arg} (h : constructItems (constructArg env m) l = .ok a) :
    constructArg env (m + 1) (.list l) = .ok (.ofList a) := by
  show constructStep env (constructArg env m) (.list l) = _
  simp only [constructStep, h]; rfl

theorem construct_dict {m : Nat} {d : List (Val × Val)} {a : List (Val × Arg)} (hf : ∀ e ∈ d, e.1 ≠ .str c!"fieldtype")
    (h : constructEntries (constructArg env m) d = .ok a) : constructArg env (m + 1) (.dict d) = .ok (.ofDict a) := by
  show constructStep env (constructArg env m) (.dict d) = _
  simp only [constructStep, h, noFieldtype hf]; rfl

/-- Plain values are carried as they are. -/
theorem PlainVal.reads {v : Val} (h : PlainVal v) : Reads env v (.val v) := by
  have pos : ∀ {m k : Nat}, k < m → ∃ m', m = m' + 1 := fun h => ⟨_, (Nat.succ_pred_eq_of_pos (Nat.lt_of_le_of_lt (Nat.zero_le _) h)).symm⟩
  induction h with
  | none => exact ⟨by simp [descParam], fun m hm => by obtain ⟨m', rfl⟩ := pos hm; rfl⟩
  | bool b => exact ⟨by simp [descParam], fun m hm => by obtain ⟨m', rfl⟩ := pos hm; rfl⟩
  | int b => exact ⟨by simp [descParam], fun m hm => by obtain ⟨m', rfl⟩ := pos hm; rfl⟩
  | float b => exact ⟨by simp [descParam], fun m hm => by obtain ⟨m', rfl⟩ := pos hm; rfl⟩
  | str b => exact ⟨by simp [descParam], fun m hm => by obtain ⟨m', rfl⟩ := pos hm; rfl⟩
  | @list l _ ih =>
    refine ⟨by simp only [descParam, descItems_self fun v hv => (ih v hv).desc]; rfl, fun m hm => ?_⟩
    obtain ⟨m', rfl⟩ := pos hm
    rw [construct_list (constructItems_self fun v hv => (ih v hv).read m' ?_), Arg.ofList, argVals_vals]
    have := depthL_mem hv
    simp only [Val.depth] at hm; omega
  | @tuple l _ ih =>
    refine ⟨by simp only [descParam, descItems_self fun v hv => (ih v hv).desc]; rfl, fun m hm => ?_⟩
    obtain ⟨m', rfl⟩ := pos hm
    have h : constructItems (constructArg env m') l = .ok (l.map .val) := constructItems_self fun v hv => (ih v hv).read m' (by
      have := depthL_mem hv
      simp only [Val.depth] at hm; omega)
    show constructStep env (constructArg env m') (.tuple l) = _
    simp only [constructStep, h, Except.map, Arg.ofTuple, argVals_vals]
  | @dict d _ hf ih =>
    refine ⟨by simp only [descParam, descEntries_self fun v hv => (ih v hv).desc]; rfl, fun m hm => ?_⟩
    obtain ⟨m', rfl⟩ := pos hm
    rw [construct_dict hf (constructEntries_self fun v hv => (ih v hv).read m' ?_), Arg.ofDict, argEntries_vals]
    have := (depthD_mem hv).2
    simp only [Val.depth] at hm; omega

theorem OpaqueVal.desc {v : Val} (h : OpaqueVal v) : descParam env v = .error .cannotDescribe := by
  cases h <;> simp [descParam]

end

/-- The entries of a description under construction: each is read back as something. -/
def Good (env : Env) (d : Desc) : Prop := ∀ e ∈ d, ∃ a, Reads env e.2 a

section
variable {env : Env}

theorem mem_keySet_or {α : Type} {k : Str} {v : α} {l : List (Str × α)} {e : Str × α} (h : e ∈ keySet k v l) :
    e = (k, v) ∨ e ∈ l := by
  induction l with
  | nil => simp only [keySet, List.mem_singleton] at h; exact .inl h
  | cons x r ih =>
    obtain ⟨a, b⟩ := x
    rw [keySet] at h
    split at h
    · next he =>
      subst he
      rcases List.mem_cons.1 h with h | h
      · exact .inl h
      · exact .inr (List.mem_cons_of_mem _ h)
    · rcases List.mem_cons.1 h with h | h
      · exact .inr (h ▸ List.mem_cons_self ..)
      · rcases ih h with h | h
        · exact .inl h
        · exact .inr (List.mem_cons_of_mem _ h)

theorem Good.keySet {d : Desc} (h : Good env d) {k : Str} {v : Val} {a : Arg} (hv : Reads env v a) : Good env (keySet k v d) := by
  intro e he
  rcases mem_keySet_or he with rfl | he
  · exact ⟨a, hv⟩
  · exact h e he

theorem nodup_keySet {α : Type} {k : Str} {v : α} {l : List (Str × α)} (h : (l.map (·.1)).Nodup) :
    ((keySet k v l).map (·.1)).Nodup := by
  rw [keys_keySet]
  split
  · exact h
  · next hk => exact List.nodup_append.2 ⟨h, by simp, by
      intro a ha b hb; simp only [List.mem_singleton] at hb; subst hb; rintro rfl; exact hk ha⟩

/-- What `descSet` does with a value that is carried or left out. -/
theorem descSet_carried {k : Str} {v : Val} (h : Carried v) (d : Desc) :
    (PlainVal v ∧ descSet env k v d = .ok (keySet k v d)) ∨ (OpaqueVal v ∧ descSet env k v d = .ok d) := by
  rcases h with h | h
  · exact .inl ⟨h, by simp only [descSet, h.reads.desc]⟩
  · exact .inr ⟨h, by simp only [descSet, h.desc]⟩

/-- State of a description: entries good, keys different from each other, keys among the given ones. -/
structure DescInv (env : Env) (keys : Str → Prop) (d : Desc) : Prop where
  good : Good env d
  nodup : (d.map (·.1)).Nodup
  keys : ∀ e ∈ d, keys e.1

theorem DescInv.keySet {keys : Str → Prop} {d : Desc} (h : DescInv env keys d) {k : Str} {v : Val} {a : Arg} (hk : keys k)
    (hv : Reads env v a) : DescInv env keys (keySet k v d) := by
  refine ⟨h.good.keySet hv, nodup_keySet h.nodup, fun e he => ?_⟩
  rcases mem_keySet_or he with rfl | he
  · exact hk
  · exact h.keys e he

theorem descAspects_inv {keys : Str → Prop} {as : List (Str × Val)} {d : Desc} (hi : DescInv env keys d)
    (ha : ∀ e ∈ as, Carried e.2 ∧ keys e.1) :
    ∃ d', descAspects env as d = .ok d' ∧ DescInv env keys d' ∧ ∀ k, k ∉ as.map (·.1) → d'.lookup k = d.lookup k := by
  induction as generalizing d with
  | nil => exact ⟨d, rfl, hi, fun _ _ => rfl⟩
  | cons e r ih =>
    obtain ⟨k, v⟩ := e
    obtain ⟨hc, hk⟩ := ha _ (List.mem_cons_self ..)
    have hr : ∀ e ∈ r, Carried e.2 ∧ keys e.1 := fun e he => ha e (List.mem_cons_of_mem _ he)
    rw [descAspects]
    split
    · obtain ⟨d', h1, h2, h3⟩ := ih hi hr
      exact ⟨d', h1, h2, fun x hx => h3 x fun h => hx (List.mem_cons_of_mem _ h)⟩
    · rcases descSet_carried (env := env) (k := k) hc d with ⟨hp, hs⟩ | ⟨_, hs⟩
      · simp only [hs, except_bind_ok]
        obtain ⟨d', h1, h2, h3⟩ := ih (hi.keySet hk hp.reads) hr
        refine ⟨d', h1, h2, fun x hx => ?_⟩
        rw [h3 x fun h => hx (List.mem_cons_of_mem _ h), lookup_keySet, if_neg]
        rintro rfl; exact hx (List.mem_cons_self ..)
      · simp only [hs, except_bind_ok]
        obtain ⟨d', h1, h2, h3⟩ := ih hi hr
        exact ⟨d', h1, h2, fun x hx => h3 x fun h => hx (List.mem_cons_of_mem _ h)⟩

/-- The parameter is left out of a description: None, or (unless verbose) the default. -/
def leftOut (verbose : Bool) (skip : List Str) (e : Str × Val × Val) : Bool :=
  skip.contains e.1 || e.2.1.isNone || (!verbose && isDefault e.2.1 e.2.2)

theorem descTable_inv {keys : Str → Prop} {verbose : Bool} {skip : List Str} {t : List (Str × Val × Val)} {d : Desc}
    (hi : DescInv env keys d) (hn : (t.map (·.1)).Nodup)
    (ha : ∀ e ∈ t, (e.1 ∈ skip ∨ Carried e.2.1) ∧ keys e.1) :
    ∃ d', descTable env verbose skip t d = .ok d' ∧ DescInv env keys d' ∧
      (∀ k, k ∉ t.map (·.1) ∨ k ∈ skip → d'.lookup k = d.lookup k) ∧
      (∀ e ∈ t, OpaqueVal e.2.1 → d'.lookup e.1 = d.lookup e.1) ∧
      ∀ e ∈ t, PlainVal e.2.1 → d'.lookup e.1 = if leftOut verbose skip e then d.lookup e.1 else some e.2.1 := by
  induction t generalizing d with
  | nil => exact ⟨d, rfl, hi, fun _ _ => rfl, (fun _ h => nomatch h), fun _ h => nomatch h⟩
  | cons e r ih =>
    obtain ⟨k, v, dflt⟩ := e
    obtain ⟨hc, hk⟩ := ha _ (List.mem_cons_self ..)
    have hr : ∀ e ∈ r, (e.1 ∈ skip ∨ Carried e.2.1) ∧ keys e.1 := fun e he => ha e (List.mem_cons_of_mem _ he)
    rw [List.map_cons, List.nodup_cons] at hn
    have ne : ∀ e ∈ r, e.1 ≠ k := fun e he h => hn.1 (h ▸ List.mem_map_of_mem (f := (·.1)) he)
    rw [descTable, show (skip.contains k || v.isNone || (!verbose && isDefault v dflt)) = leftOut verbose skip (k, v, dflt) from rfl]
    by_cases hl : leftOut verbose skip (k, v, dflt) = true
    · rw [if_pos hl]
      obtain ⟨d', h1, h2, h3, h5, h4⟩ := ih hi hn.2 hr
      refine ⟨d', h1, h2, fun x hx => h3 x (hx.imp_left fun hx h => hx (List.mem_cons_of_mem _ h)), fun e he hp => ?_, fun e he hp => ?_⟩
      · rcases List.mem_cons.1 he with rfl | he
        · exact h3 _ (.inl hn.1)
        · exact h5 e he hp
      rcases List.mem_cons.1 he with rfl | he
      · rw [if_pos hl]; exact h3 _ (.inl hn.1)
      · exact h4 e he hp
    · rw [if_neg hl]
      have hcv : Carried v := by
        rcases hc with hc | hc
        · exact absurd (by simp [leftOut, hc]) hl
        · exact hc
      rcases descSet_carried (env := env) (k := k) hcv d with ⟨hp, hs⟩ | ⟨ho, hs⟩
      · simp only [hs, except_bind_ok]
        obtain ⟨d', h1, h2, h3, h5, h4⟩ := ih (hi.keySet hk hp.reads) hn.2 hr
        refine ⟨d', h1, h2, fun x hx => ?_, fun e he hp' => ?_, fun e he hp' => ?_⟩
        · rw [h3 x (hx.imp_left fun hx h => hx (List.mem_cons_of_mem _ h)), lookup_keySet, if_neg]
          rintro rfl
          rcases hx with hx | hx
          · exact hx (List.mem_cons_self ..)
          · exact hl (by simp [leftOut, hx])
        · rcases List.mem_cons.1 he with rfl | he
          · exfalso; cases hp <;> cases hp'
          · rw [h5 e he hp', lookup_keySet, if_neg (ne e he)]
        · rcases List.mem_cons.1 he with rfl | he
          · rw [if_neg hl, h3 _ (.inl hn.1), lookup_keySet, if_pos rfl]
          · rw [h4 e he hp', lookup_keySet, if_neg (ne e he)]
      · simp only [hs, except_bind_ok]
        obtain ⟨d', h1, h2, h3, h5, h4⟩ := ih hi hn.2 hr
        refine ⟨d', h1, h2, fun x hx => h3 x (hx.imp_left fun hx h => hx (List.mem_cons_of_mem _ h)), fun e he hp' => ?_, fun e he hp' => ?_⟩
        · rcases List.mem_cons.1 he with rfl | he
          · exact h3 _ (.inl hn.1)
          · exact h5 e he hp'
        rcases List.mem_cons.1 he with rfl | he
        · exfalso; cases ho <;> cases hp'
        · exact h4 e he hp'

theorem descOver_inv {keys : Str → Prop} {verbose : Bool} {t : List (Str × Val)} {d : Desc}
    (hi : DescInv env keys d) (hn : (t.map (·.1)).Nodup) (ha : ∀ e ∈ t, (∃ a, Reads env e.2 a) ∧ keys e.1) :
    ∃ d', descOver env verbose t d = .ok d' ∧ DescInv env keys d' ∧
      (∀ k, k ∉ t.map (·.1) → d'.lookup k = d.lookup k) ∧
      ∀ e ∈ t, d'.lookup e.1 = if !verbose && e.2.isNone then d.lookup e.1 else some e.2 := by
  induction t generalizing d with
  | nil => exact ⟨d, rfl, hi, fun _ _ => rfl, fun _ h => nomatch h⟩
  | cons e r ih =>
    obtain ⟨k, v⟩ := e
    obtain ⟨⟨a, hc⟩, hk⟩ := ha _ (List.mem_cons_self ..)
    have hr : ∀ e ∈ r, (∃ a, Reads env e.2 a) ∧ keys e.1 := fun e he => ha e (List.mem_cons_of_mem _ he)
    rw [List.map_cons, List.nodup_cons] at hn
    have ne : ∀ e ∈ r, e.1 ≠ k := fun e he h => hn.1 (h ▸ List.mem_map_of_mem (f := (·.1)) he)
    rw [descOver]
    by_cases hl : (!verbose && v.isNone) = true
    · rw [if_pos hl]
      obtain ⟨d', h1, h2, h3, h4⟩ := ih hi hn.2 hr
      refine ⟨d', h1, h2, fun x hx => h3 x fun h => hx (List.mem_cons_of_mem _ h), fun e he => ?_⟩
      rcases List.mem_cons.1 he with rfl | he
      · rw [if_pos hl]; exact h3 _ hn.1
      · exact h4 e he
    · rw [if_neg hl]
      have hs : descSet env k v d = .ok (keySet k v d) := by simp only [descSet, hc.desc]
      simp only [hs, except_bind_ok]
      obtain ⟨d', h1, h2, h3, h4⟩ := ih (hi.keySet hk hc) hn.2 hr
      refine ⟨d', h1, h2, fun x hx => ?_, fun e he => ?_⟩
      · rw [h3 x fun h => hx (List.mem_cons_of_mem _ h), lookup_keySet, if_neg]
        rintro rfl; exact hx (List.mem_cons_self ..)
      · rcases List.mem_cons.1 he with rfl | he
        · rw [if_neg hl, h3 _ hn.1, lookup_keySet, if_pos rfl]
        · rw [h4 e he, lookup_keySet, if_neg (ne e he)]

end

/-! ### reading a description -/

section
variable {env : Env}

/-- The arguments constructed from entries. -/
theorem constructEntries_good {d : Desc} (h : Good env d) : ∃ args : Args,
    (∀ m, (∀ e ∈ d, e.2.depth < m) →
      constructEntries (constructArg env m) (d.map fun e => (.str e.1, e.2)) = .ok (args.map fun e => (.str e.1, e.2))) ∧
    args.map (·.1) = d.map (·.1) ∧
    ∀ k x, d.lookup k = some x → ∀ a, Reads env x a → args.lookup k = some a := by
  induction d with
  | nil => exact ⟨[], fun _ _ => rfl, rfl, fun _ _ h => by simp at h⟩
  | cons e r ih =>
    obtain ⟨k, x⟩ := e
    obtain ⟨a, ha⟩ := h _ (List.mem_cons_self ..)
    obtain ⟨args, h1, h2, h3⟩ := ih fun e he => h e (List.mem_cons_of_mem _ he)
    refine ⟨(k, a) :: args, fun m hm => ?_, by simp [h2], fun k' x' hl a' ha' => ?_⟩
    · simp only [List.map_cons, constructEntries, ha.read m (hm _ (List.mem_cons_self ..)),
        h1 m fun e he => hm e (List.mem_cons_of_mem _ he)]
      rfl
    · rw [List.lookup_cons] at hl ⊢
      cases hk : k' == k with
      | true =>
        rw [hk] at hl
        simp only [Option.some.injEq] at hl ⊢
        subst hl
        exact ha.unique ha'
      | false =>
        rw [hk] at hl
        exact h3 k' x' hl a' ha'

theorem keywordArgs_ok {args : Args} (h : ∀ e ∈ args, e.1 ≠ c!"cls" ∧ e.1 ≠ c!"self") :
    keywordArgs (args.map fun e => (.str e.1, e.2)) = .ok args := by
  induction args with
  | nil => rfl
  | cons e r ih =>
    obtain ⟨k, a⟩ := e
    obtain ⟨h1, h2⟩ := h _ (List.mem_cons_self ..)
    simp only at h1 h2
    simp only [List.map_cons, keywordArgs, h1, h2, ih fun e he => h e (List.mem_cons_of_mem _ he)]
    rfl

theorem dictGet_desc (d : Desc) (k : Str) : dictGet (d.map fun e => (.str e.1, e.2)) (.str k) = d.lookup k := by
  induction d with
  | nil => rfl
  | cons e r ih =>
    obtain ⟨a, b⟩ := e
    simp only [List.map_cons, dictGet, pyEq_str_str, List.lookup_cons, ih]
    by_cases h : k = a
    · simp [h]
    · have : (k == a) = false := by simpa using h
      simp [this, h]

theorem dictDel_desc {d : Desc} (h : (d.map (·.1)).Nodup) (k : Str) :
    dictDel (d.map fun e => (.str e.1, e.2)) (.str k) = (d.filter fun e => e.1 != k).map fun e => (.str e.1, e.2) := by
  induction d with
  | nil => rfl
  | cons e r ih =>
    obtain ⟨a, b⟩ := e
    rw [List.map_cons, List.nodup_cons] at h
    simp only [List.map_cons, dictDel, pyEq_str_str, ih h.2]
    by_cases hk : k = a
    · subst hk
      simp only [decide_true, if_true, BEq.rfl]
      rw [List.filter_cons_of_neg (by simp)]
      congr 1
      symm
      rw [List.filter_eq_self]
      intro e he
      simp only [bne_iff_ne]
      rintro rfl
      exact h.1 (List.mem_map_of_mem (f := (·.1)) he)
    · rw [List.filter_cons_of_pos (by simp; exact fun h => hk h.symm)]
      simp [hk]

theorem lookup_filter_ne {α : Type} (d : List (Str × α)) {k k' : Str} (h : k ≠ k') :
    (d.filter fun e => e.1 != k').lookup k = d.lookup k := by
  induction d with
  | nil => rfl
  | cons e r ih =>
    obtain ⟨a, b⟩ := e
    by_cases ha : a = k'
    · subst ha
      rw [List.filter_cons_of_neg (by simp), ih, List.lookup_cons]
      have : (k == a) = false := by simpa using h
      rw [this]
    · rw [List.filter_cons_of_pos (by simpa using ha), List.lookup_cons, List.lookup_cons, ih]

/-- Names that can be keyword arguments. -/
def okKey (k : Str) : Prop := k ≠ c!"" ∧ k ≠ c!"cls" ∧ k ≠ c!"self"

theorem reconstruct_desc {d : Desc} (h : DescInv env okKey d) {t : Str} (ht : t ∈ fieldTypes)
    (hl : d.lookup c!"fieldtype" = some (.str t)) : ∃ args : Args,
    (∀ m, (Desc.val d).depth ≤ m → reconstructDict env (constructArg env m) (d.map fun e => (.str e.1, e.2)) = initField env t args) ∧
    (∀ e ∈ args, e.1 ≠ []) ∧
    (∀ k, d.lookup k = none → args.lookup k = none) ∧
    ∀ k x, k ≠ c!"fieldtype" → d.lookup k = some x → ∀ a, Reads env x a → args.lookup k = some a := by
  obtain ⟨args, h1, h2, h3⟩ := constructEntries_good (env := env) (d := d.filter fun e => e.1 != c!"fieldtype")
    fun e he => h.good e (List.mem_filter.1 he).1
  have hmem : ∀ e ∈ args, ∃ x ∈ d, x.1 = e.1 := by
    intro e he
    have : e.1 ∈ args.map (·.1) := List.mem_map_of_mem (f := (·.1)) he
    rw [h2] at this
    obtain ⟨x, hx, hk⟩ := List.mem_map.1 this
    exact ⟨x, (List.mem_filter.1 hx).1, hk⟩
  have hkey : ∀ e ∈ args, okKey e.1 := by
    intro e he
    obtain ⟨x, hx, hk⟩ := hmem e he
    exact hk ▸ h.keys x hx
  refine ⟨args, fun m hm => ?_, fun e he => (hkey e he).1, fun k hk => ?_, fun k x hk hx => ?_⟩
  · unfold reconstructDict
    rw [dictGet_desc, hl]
    simp only [List.contains_iff_mem.2 ht, if_true]
    rw [dictDel_desc h.nodup, h1, except_bind_ok, keywordArgs_ok fun e he => (hkey e he).2, except_bind_ok]
    intro e he
    have := (depthD_mem (d := d.map fun e => (Val.str e.1, e.2)) (e := (.str e.1, e.2))
      (List.mem_map_of_mem (f := fun e : Str × Val => (Val.str e.1, e.2)) (List.mem_filter.1 he).1)).2
    simp only [Desc.val, Val.depth] at hm
    simp only at this; omega
  · cases hl' : args.lookup k with
    | none => rfl
    | some a =>
      have : (args.lookup k).isSome = true := by rw [hl']; rfl
      rw [lookup_isSome] at this
      obtain ⟨e, he, hk'⟩ := List.mem_map.1 this
      obtain ⟨x, hx, hk''⟩ := hmem e he
      have : (d.lookup k).isSome = true := lookup_isSome.2 (List.mem_map.2 ⟨x, hx, hk''.trans hk'⟩)
      rw [hk] at this; cases this
  · exact h3 k x (by rw [lookup_filter_ne d hk]; exact hx)

theorem isNone_ne {v : Val} (h : v ≠ .none) : v.isNone = false := by cases v <;> first | rfl | exact absurd rfl h
theorem isDefault_ne {v : Val} (h : v ≠ .none) : isDefault v .none = false := by cases v <;> first | rfl | exact absurd rfl h
theorem eq_none {v : Val} (h : v.isNone = true) : v = .none := by cases v <;> first | rfl | cases h

/-- What the constructor is called with. -/
structure ArgsOf (env : Env) (c : Common) (table : List (Str × Val × Val)) (over : List (Str × Val)) (args : Args) : Prop where
  plain : ∀ k v, (k, v, Val.none) ∈ table → k ∉ over.map (·.1) → k ∉ c.aspects.map (·.1) → k ≠ c!"fieldtype" →
    PlainVal v → args.get k = .ok v
  carried : ∀ k v, (k, v, Val.none) ∈ table → k ∉ over.map (·.1) → k ∉ c.aspects.map (·.1) → k ≠ c!"fieldtype" →
    Carried v → ∃ w, args.get k = .ok w
  flag : ∀ k b dflt, (k, .bool b, .bool dflt) ∈ table → k ∉ over.map (·.1) → k ∉ c.aspects.map (·.1) →
    k ≠ c!"fieldtype" → args.flag k dflt = b
  given : ∀ k v, (k, v) ∈ over → k ∉ c.aspects.map (·.1) → k ≠ c!"fieldtype" → ∀ a, Reads env v a →
    args.lookup k = some a ∨ (v = .none ∧ args.lookup k = none)
  absent : ∀ k, k ∉ table.map (·.1) → k ∉ over.map (·.1) → k ∉ c.aspects.map (·.1) → k ≠ c!"fieldtype" → args.lookup k = none
  keys : ∀ e ∈ args, e.1 ≠ []

theorem descBase_args {own : List Str} {verbose : Bool} {t : Str} (ht : t ∈ fieldTypes) {c : Common} {structural : Bool}
    {table : List (Str × Val × Val)} {over : List (Str × Val)} (hc : CarriedCommon own c)
    (hn : ((baseTable c structural ++ table).map (·.1)).Nodup)
    (ht' : ∀ e ∈ baseTable c structural ++ table, (e.1 ∈ over.map (·.1) ∨ Carried e.2.1) ∧ okKey e.1 ∧ e.1 ≠ c!"fieldtype")
    (hno : (over.map (·.1)).Nodup) (ho : ∀ e ∈ over, (∃ a, Reads env e.2 a) ∧ okKey e.1 ∧ e.1 ≠ c!"fieldtype") :
    ∃ d, descBase env verbose t c structural table over = .ok (Desc.val d) ∧ Good env d ∧
      d.lookup c!"fieldtype" = some (.str t) ∧
      ∃ args, ArgsOf env c (baseTable c structural ++ table) over args ∧
      ∀ m, (Desc.val d).depth ≤ m → reconstructDict env (constructArg env m) (d.map fun e => (.str e.1, e.2)) = initField env t args := by
  have i0 : DescInv env okKey [(c!"fieldtype", .str t)] := by
    refine ⟨?_, by simp, ?_⟩
    · intro e he
      simp only [List.mem_singleton] at he
      subst he
      exact ⟨_, (PlainVal.str t).reads⟩
    · intro e he
      simp only [List.mem_singleton] at he
      subst he
      exact ⟨nofun, nofun, nofun⟩
  have hasp : ∀ e ∈ c.aspects, okKey e.1 ∧ e.1 ≠ c!"fieldtype" := by
    intro e he
    obtain ⟨_, h, _⟩ := hc.aspects e he
    simp only [commonKeys, List.mem_cons, not_or] at h
    refine ⟨⟨?_, ?_, ?_⟩, ?_⟩ <;> simp only [h, ne_eq, not_false_eq_true]
  obtain ⟨d1, e1, i1, l1⟩ := descAspects_inv i0 fun e he => ⟨(hc.aspects e he).2.2, (hasp e he).1⟩
  obtain ⟨d2, e2, i2, l2, o2, p2⟩ := descTable_inv (verbose := verbose) (skip := over.map (·.1)) i1 hn fun e he => ⟨(ht' e he).1, (ht' e he).2.1⟩
  obtain ⟨d3, e3, i3, l3, p3⟩ := descOver_inv (verbose := verbose) i2 hno fun e he => ⟨(ho e he).1, (ho e he).2.1⟩
  have nf : ∀ {l : List (Str × Val)}, (∀ e ∈ l, e.1 ≠ c!"fieldtype") → c!"fieldtype" ∉ l.map (·.1) := by
    intro l h hm
    obtain ⟨e, he, hk⟩ := List.mem_map.1 hm
    exact h e he hk
  have hft : d3.lookup c!"fieldtype" = some (.str t) := by
    rw [l3 _ (nf fun e he => (ho e he).2.2), l2 _ (.inl ?_), l1 _ (nf fun e he => (hasp e he).2)]
    · rfl
    · intro hm
      obtain ⟨e, he, hk⟩ := List.mem_map.1 hm
      exact (ht' e he).2.2 hk
  have h1 : ∀ k, k ∉ c.aspects.map (·.1) → k ≠ c!"fieldtype" → d1.lookup k = none := by
    intro k hk hf
    rw [l1 k hk, List.lookup_cons]
    have : (k == c!"fieldtype") = false := by simpa using hf
    rw [this]; rfl
  obtain ⟨args, hargs, hkeys, hnone, hsome⟩ := reconstruct_desc i3 ht hft
  have hplain : ∀ k v, (k, v, Val.none) ∈ baseTable c structural ++ table → k ∉ over.map (·.1) → k ∉ c.aspects.map (·.1) →
      k ≠ c!"fieldtype" → PlainVal v → args.get k = .ok v := by
    intro k v hm hov has hf hp
    have h3 : d3.lookup k = if leftOut verbose (over.map (·.1)) (k, v, .none) then none else some v := by
      rw [l3 k hov, p2 _ hm hp, h1 k has hf]
    by_cases hv : v = .none
    · subst hv
      rw [if_pos (by simp [leftOut, Val.isNone])] at h3
      simp only [Args.get, hnone k h3]
    · rw [if_neg] at h3
      · simp only [Args.get, hsome k v hf h3 _ hp.reads]
      · have hv' := isNone_ne hv
        have hd := isDefault_ne hv
        simp only [leftOut, hv', hd, Bool.and_false, Bool.or_false]
        simpa using hov
  refine ⟨d3, ?_, i3.good, hft, args, ⟨hplain, ?_, ?_, ?_, ?_, hkeys⟩, hargs⟩
  · simp only [descBase, e1, e2, e3, except_bind_ok]; rfl
  · intro k v hm hov has hf hp
    rcases hp with hp | hp
    · exact ⟨v, hplain k v hm hov has hf hp⟩
    · refine ⟨.none, ?_⟩
      have := o2 _ hm hp
      simp only at this
      simp only [Args.get, hnone k (by rw [l3 k hov, this, h1 k has hf])]
  · intro k b dflt hm hov has hf
    have h3 : d3.lookup k = if leftOut verbose (over.map (·.1)) (k, .bool b, .bool dflt) then none else some (.bool b) := by
      rw [l3 k hov, p2 _ hm (.bool b), h1 k has hf]
    by_cases hl : leftOut verbose (over.map (·.1)) (k, .bool b, .bool dflt) = true
    · rw [if_pos hl] at h3
      simp only [Args.flag, hnone k h3]
      have hov' : (over.map (·.1)).contains k = false := by simpa using hov
      simp only [leftOut, hov', Val.isNone, isDefault, Bool.false_or, Bool.and_eq_true, beq_iff_eq] at hl
      exact hl.2.symm
    · rw [if_neg hl] at h3
      simp only [Args.flag, hsome k _ hf h3 _ (PlainVal.bool b).reads, Val.truthy]
  · intro k v hm has hf a ha
    have h3 := p3 _ hm
    simp only at h3
    by_cases hl : (!verbose && v.isNone) = true
    · rw [if_pos hl] at h3
      right
      simp only [Bool.and_eq_true] at hl
      refine ⟨eq_none hl.2, hnone k ?_⟩
      rw [h3, l2 k (.inr (List.mem_map_of_mem (f := (·.1)) hm)), h1 k has hf]
    · rw [if_neg hl] at h3
      exact .inl (hsome k v hf h3 a ha)
  · intro k h2 h3' has hf
    exact hnone k (by rw [l3 k h3', l2 k (.inl h2), h1 k has hf])

/-! ### the attributes every field has -/

/-- The keyword arguments of Field.__init__ give back the attributes `c`. -/
structure CommonArgs (c : Common) (args : Args) : Prop where
  name : args.get c!"name" = .ok (match c.name with | some s => .str s | none => .none)
  description : ∃ w, args.get c!"description" = .ok w
  default : args.get c!"default" = .ok c.default
  constant : args.get c!"constant" = .ok c.constant
  title : ∃ w, args.get c!"title" = .ok w
  notes : ∃ w, args.get c!"notes" = .ok w
  instantiator : args.get c!"instantiator" = .ok .none
  extractor : args.get c!"extractor" = .ok .none
  preprocessor : args.get c!"preprocessor" = .ok .none
  aspects : args.get c!"aspects" = .ok .none
  errors : args.flag c!"errors" false = false
  nonempty : args.flag c!"nonempty" false = false
  nonnull : args.flag c!"nonnull" false = c.nonnull
  required : args.flag c!"required" false = c.required
  ignoreNull : args.flag c!"ignore_null" false = c.ignoreNull
  keys : ∀ e ∈ args, e.1 ≠ []

theorem initAspects_ok {known : List Str} {args : Args} (h : ∀ e ∈ args, e.1 ≠ []) : ∃ r, initAspects known args = .ok r := by
  induction args with
  | nil => exact ⟨_, rfl⟩
  | cons e r ih =>
    obtain ⟨k, a⟩ := e
    obtain ⟨r', hr⟩ := ih fun e he => h e (List.mem_cons_of_mem _ he)
    cases k with
    | nil => exact absurd rfl (h _ (List.mem_cons_self ..))
    | cons c s =>
      rw [initAspects.eq_def]
      simp only
      split
      · exact ⟨r', hr⟩
      · simp only [hr, except_bind_ok]
        cases a <;> exact ⟨_, rfl⟩

theorem initCommon_ok {known : List Str} {c : Common} {args : Args} (h : CommonArgs c args) (hp : c.pre = none)
    (he : c.errors = []) : ∃ c', initCommon known args = .ok c' ∧ SameUse c c' := by
  obtain ⟨w1, h1⟩ := h.description
  obtain ⟨w2, h2⟩ := h.title
  obtain ⟨w3, h3⟩ := h.notes
  obtain ⟨r, hr⟩ := initAspects_ok (known := known ++ baseKeys) h.keys
  unfold initCommon
  simp only [h.name, except_bind_ok, h1, h.default, h.constant, h2, h3, h.instantiator, h.extractor, h.preprocessor, h.aspects,
    h.errors, hr, h.nonempty, h.nonnull, h.required, h.ignoreNull, Val.isNone]
  cases hn : c.name with
  | none =>
    exact ⟨_, rfl, hn, rfl, rfl, by simp, rfl, by simp, hp, he⟩
  | some s =>
    exact ⟨_, rfl, hn, rfl, rfl, by simp, rfl, by simp, hp, he⟩

theorem Args.get_absent {args : Args} {k : Str} (h : args.lookup k = none) : args.get k = .ok .none := by
  simp only [Args.get, h]

theorem Args.flag_absent {args : Args} {k : Str} {b : Bool} (h : args.lookup k = none) : args.flag k b = b := by
  simp only [Args.flag, h]

theorem notAspect {own : List Str} {c : Common} (hc : CarriedCommon own c) {k : Str} (h : k ∈ own ∨ k ∈ commonKeys) :
    k ∉ c.aspects.map (·.1) := by
  intro hm
  obtain ⟨e, he, rfl⟩ := List.mem_map.1 hm
  obtain ⟨h1, h2, _⟩ := hc.aspects e he
  exact h.elim h1 h2

theorem commonArgs_of {own : List Str} {c : Common} {s : Bool} {table : List (Str × Val × Val)} {over : List (Str × Val)} {args : Args}
    (h : ArgsOf env c (baseTable c s ++ table) over args) (hc : CarriedCommon own c)
    (ho : ∀ k ∈ commonKeys, k ≠ c!"default" → k ∉ over.map (·.1))
    (ht : ∀ k ∈ commonKeys, k ∉ table.map (·.1))
    (hd : args.get c!"default" = .ok c.default) : CommonArgs c args := by
  have P : ∀ k v, k ∈ commonKeys → k ≠ c!"default" → k ≠ c!"fieldtype" → (k, v, Val.none) ∈ baseTable c s → PlainVal v →
      args.get k = .ok v := fun k v h1 h2 h3 h4 h5 =>
    h.plain k v (List.mem_append_left _ h4) (ho k h1 h2) (notAspect hc (.inr h1)) h3 h5
  have C : ∀ k v, k ∈ commonKeys → k ≠ c!"default" → k ≠ c!"fieldtype" → (k, v, Val.none) ∈ baseTable c s → Carried v →
      ∃ w, args.get k = .ok w := fun k v h1 h2 h3 h4 h5 =>
    h.carried k v (List.mem_append_left _ h4) (ho k h1 h2) (notAspect hc (.inr h1)) h3 h5
  have F : ∀ k b, k ∈ commonKeys → k ≠ c!"default" → k ≠ c!"fieldtype" → (k, Val.bool b, Val.bool false) ∈ baseTable c s →
      args.flag k false = b := fun k b h1 h2 h3 h4 =>
    h.flag k b false (List.mem_append_left _ h4) (ho k h1 h2) (notAspect hc (.inr h1)) h3
  have A : ∀ k, k ∈ commonKeys → k ≠ c!"default" → k ≠ c!"fieldtype" → k ∉ (baseTable c s).map (·.1) → args.lookup k = none := by
    intro k h1 h2 h3 h4
    refine h.absent k ?_ (ho k h1 h2) (notAspect hc (.inr h1)) h3
    rw [List.map_append, List.mem_append, not_or]
    exact ⟨h4, ht k h1⟩
  have hb : (baseTable c s).map (·.1) = [c!"name", c!"constant", c!"description", c!"default", c!"nonnull", c!"ignore_null",
    c!"required", c!"title", c!"notes", c!"structural"] := rfl
  have A' : ∀ k, k ∈ commonKeys → k ≠ c!"default" → k ≠ c!"fieldtype" → k ∉ [c!"name", c!"constant", c!"description",
    c!"default", c!"nonnull", c!"ignore_null", c!"required", c!"title", c!"notes", c!"structural"] → args.lookup k = none :=
    fun k h1 h2 h3 h4 => A k h1 h2 h3 (hb ▸ h4)
  refine {
    name := P _ _ (by decide) (by decide) (by decide) (List.mem_cons_self ..) (by cases c.name <;> constructor)
    description := C _ c.description (by decide) (by decide) (by decide) (by simp [baseTable]) hc.description
    default := hd
    constant := P _ _ (by decide) (by decide) (by decide) (by simp [baseTable]) hc.constant
    title := C _ c.title (by decide) (by decide) (by decide) (by simp [baseTable]) hc.title
    notes := C _ c.notes (by decide) (by decide) (by decide) (by simp [baseTable]) hc.notes
    instantiator := Args.get_absent (A' _ (by decide) (by decide) (by decide) (by decide))
    extractor := Args.get_absent (A' _ (by decide) (by decide) (by decide) (by decide))
    preprocessor := Args.get_absent (A' _ (by decide) (by decide) (by decide) (by decide))
    aspects := Args.get_absent (A' _ (by decide) (by decide) (by decide) (by decide))
    errors := Args.flag_absent (A' _ (by decide) (by decide) (by decide) (by decide))
    nonempty := Args.flag_absent (A' _ (by decide) (by decide) (by decide) (by decide))
    nonnull := F _ _ (by decide) (by decide) (by decide) (by simp [baseTable])
    required := F _ _ (by decide) (by decide) (by decide) (by simp [baseTable])
    ignoreNull := F _ _ (by decide) (by decide) (by decide) (by simp [baseTable])
    keys := h.keys }

theorem commonArgs_filter {c : Common} {args : Args} (h : CommonArgs c args) :
    CommonArgs c (args.filter fun e => e.1 != c!"errors") := by
  have G : ∀ k, k ≠ c!"errors" → Args.get (args.filter fun e => e.1 != c!"errors") k = args.get k := fun k hk => by
    simp only [Args.get, lookup_filter_ne args hk]
  have F : ∀ k b, k ≠ c!"errors" → Args.flag (args.filter fun e => e.1 != c!"errors") k b = args.flag k b := fun k b hk => by
    simp only [Args.flag, lookup_filter_ne args hk]
  have E : (args.filter fun e => e.1 != c!"errors").lookup c!"errors" = none := by
    cases hl : (args.filter fun e => e.1 != c!"errors").lookup c!"errors" with
    | none => rfl
    | some a =>
      have : ((args.filter fun e => e.1 != c!"errors").lookup c!"errors").isSome = true := by rw [hl]; rfl
      obtain ⟨e, he, hk⟩ := List.mem_map.1 (lookup_isSome.1 this)
      have := (List.mem_filter.1 he).2
      rw [hk] at this; simp at this
  exact {
    name := (G _ (by decide)).trans h.name
    description := h.description.imp fun w hw => (G _ (by decide)).trans hw
    default := (G _ (by decide)).trans h.default
    constant := (G _ (by decide)).trans h.constant
    title := h.title.imp fun w hw => (G _ (by decide)).trans hw
    notes := h.notes.imp fun w hw => (G _ (by decide)).trans hw
    instantiator := (G _ (by decide)).trans h.instantiator
    extractor := (G _ (by decide)).trans h.extractor
    preprocessor := (G _ (by decide)).trans h.preprocessor
    aspects := (G _ (by decide)).trans h.aspects
    errors := Args.flag_absent E
    nonempty := (F _ _ (by decide)).trans h.nonempty
    nonnull := (F _ _ (by decide)).trans h.nonnull
    required := (F _ _ (by decide)).trans h.required
    ignoreNull := (F _ _ (by decide)).trans h.ignoreNull
    keys := fun e he => h.keys e (List.mem_filter.1 he).1 }

/-- What describing a field and reading the description gives. -/
structure NodeArgs (env : Env) (own : List Str) (t : Str) (c : Common) (table : List (Str × Val × Val)) (over : List (Str × Val))
    (d : Desc) (args : Args) : Prop where
  good : Good env d
  type : d.lookup c!"fieldtype" = some (.str t)
  init : ∀ m, (Desc.val d).depth ≤ m →
    reconstructDict env (constructArg env m) (d.map fun e => (.str e.1, e.2)) = initField env t args
  common : CommonArgs c args
  plain : ∀ k v, (k, v, Val.none) ∈ table → k ∉ over.map (·.1) → PlainVal v → args.get k = .ok v
  flag : ∀ k b dflt, (k, .bool b, .bool dflt) ∈ table → k ∉ over.map (·.1) → args.flag k dflt = b
  given : ∀ k v, (k, v) ∈ over → ∀ a, Reads env v a → args.lookup k = some a ∨ (v = .none ∧ args.lookup k = none)
  absent : ∀ k ∈ own, k ∉ table.map (·.1) → k ∉ over.map (·.1) → args.lookup k = none

theorem NodeArgs.givenVal {own : List Str} {t : Str} {c : Common} {table : List (Str × Val × Val)} {over : List (Str × Val)}
    {d : Desc} {args : Args} (h : NodeArgs env own t c table over d args) {k : Str} {v : Val} (hm : (k, v) ∈ over)
    (hv : PlainVal v) : args.get k = .ok v := by
  rcases h.given k v hm _ hv.reads with h | ⟨rfl, h⟩
  · simp only [Args.get, h]
  · simp only [Args.get, h]

theorem descNode {own : List Str} (verbose : Bool) {t : Str} (ht : t ∈ fieldTypes) {c : Common} (structural : Bool)
    {table : List (Str × Val × Val)} {over : List (Str × Val)} (hc : CarriedCommon own c)
    (hown : ∀ k ∈ own, k ∉ commonKeys ∧ k ≠ c!"structural")
    (htn : (table.map (·.1)).Nodup) (hts : ∀ e ∈ table, e.1 ∈ own ∧ (e.1 ∈ over.map (·.1) ∨ PlainVal e.2.1))
    (hon : (over.map (·.1)).Nodup) (hos : ∀ e ∈ over, (e.1 ∈ own ∨ e.1 = c!"default") ∧ ∃ a, Reads env e.2 a)
    (hdef : PlainVal c.default) (hdo : (c!"default" ∉ over.map (·.1)) ∨ (c!"default", c.default) ∈ over) :
    ∃ d args, descBase env verbose t c structural table over = .ok (Desc.val d) ∧ NodeArgs env own t c table over d args := by
  have hb : (baseTable c structural).map (·.1) = [c!"name", c!"constant", c!"description", c!"default", c!"nonnull", c!"ignore_null",
    c!"required", c!"title", c!"notes", c!"structural"] := rfl
  have okc : ∀ k ∈ own, okKey k ∧ k ≠ c!"fieldtype" := by
    intro k hk
    have := (hown k hk).1
    simp only [commonKeys, List.mem_cons, not_or] at this
    exact ⟨⟨this.2.2.2.2.2.2.2.2.2.2.2.2.2.2.2.2.2.2.1, this.2.2.2.2.2.2.2.2.2.2.2.2.2.2.2.2.1,
      this.2.2.2.2.2.2.2.2.2.2.2.2.2.2.2.2.2.1⟩, this.2.2.2.2.2.2.2.2.2.2.2.2.2.2.2.1⟩
  have okb : ∀ k ∈ (baseTable c structural).map (·.1), okKey k ∧ k ≠ c!"fieldtype" := by
    rw [hb]
    simp only [okKey]
    decide
  have carb : ∀ e ∈ baseTable c structural, Carried e.2.1 := by
    intro e he
    simp only [baseTable, List.mem_cons, List.not_mem_nil, or_false] at he
    rcases he with rfl | rfl | rfl | rfl | rfl | rfl | rfl | rfl | rfl | rfl
    · left; simp only; cases c.name <;> constructor
    · exact .inl hc.constant
    · exact hc.description
    · exact .inl hdef
    · exact .inl (.bool _)
    · exact .inl (.bool _)
    · exact .inl (.bool _)
    · exact hc.title
    · exact hc.notes
    · exact .inl (.bool _)
  have htc : ∀ k ∈ commonKeys, k ∉ table.map (·.1) := by
    intro k hk hm
    obtain ⟨e, he, rfl⟩ := List.mem_map.1 hm
    exact (hown _ (hts e he).1).1 hk
  have hoc : ∀ k ∈ commonKeys, k ≠ c!"default" → k ∉ over.map (·.1) := by
    intro k hk hd hm
    obtain ⟨e, he, rfl⟩ := List.mem_map.1 hm
    rcases (hos e he).1 with h | h
    · exact (hown _ h).1 hk
    · exact hd h
  have hnd : ((baseTable c structural ++ table).map (·.1)).Nodup := by
    rw [List.map_append, List.nodup_append]
    refine ⟨by rw [hb]; decide, htn, ?_⟩
    intro a ha b hb' he
    subst he
    obtain ⟨e, he, rfl⟩ := List.mem_map.1 hb'
    have h1 := hown _ (hts e he).1
    rw [hb] at ha
    simp only [List.mem_cons, List.not_mem_nil, or_false] at ha
    rcases ha with h | h | h | h | h | h | h | h | h | h
    all_goals first | exact h1.2 h | (rw [h] at h1; exact absurd h1.1 (by decide))
  obtain ⟨d, h1, h2, h3, args, h4, h5⟩ := descBase_args (verbose := verbose) (structural := structural) (table := table) (over := over)
    ht hc hnd (by
      intro e he
      rcases List.mem_append.1 he with he | he
      · exact ⟨.inr (carb e he), okb _ (List.mem_map_of_mem (f := (·.1)) he)⟩
      · exact ⟨(hts e he).2.imp_right .inl, okc _ (hts e he).1⟩) hon (by
      intro e he
      refine ⟨(hos e he).2, ?_⟩
      rcases (hos e he).1 with h | h
      · exact okc _ h
      · rw [h]
        simp only [okKey]
        decide)
  have hd : args.get c!"default" = .ok c.default := by
    rcases hdo with hdo | hdo
    · exact h4.plain _ _ (List.mem_append_left _ (by simp [baseTable])) hdo (notAspect hc (.inr (by decide))) (by decide) hdef
    · rcases h4.given _ _ hdo (notAspect hc (.inr (by decide))) (by decide) _ hdef.reads with h | ⟨hn, h⟩
      · simp only [Args.get, h]
      · simp only [Args.get, h, hn]
  have inOwn : ∀ k, k ∈ table.map (·.1) → k ∈ own := by
    intro k hk
    obtain ⟨e, he, rfl⟩ := List.mem_map.1 hk
    exact (hts e he).1
  refine ⟨d, args, h1, h2, h3, h5, commonArgs_of h4 hc hoc htc hd, ?_, ?_, ?_, ?_⟩
  · intro k v hm ho hp
    have hk := inOwn k (List.mem_map.2 ⟨_, hm, rfl⟩)
    exact h4.plain k v (List.mem_append_right _ hm) ho (notAspect hc (.inl hk)) (okc k hk).2 hp
  · intro k b dflt hm ho
    have hk := inOwn k (List.mem_map.2 ⟨_, hm, rfl⟩)
    exact h4.flag k b dflt (List.mem_append_right _ hm) ho (notAspect hc (.inl hk)) (okc k hk).2
  · intro k v hm a ha
    refine h4.given k v hm (notAspect hc ?_) ?_ a ha
    · exact (hos _ hm).1.imp_right fun h => by simp only at h; rw [h]; decide
    · rcases (hos _ hm).1 with h | h
      · exact (okc _ h).2
      · simp only at h; rw [h]; decide
  · intro k hk h1 h2
    refine h4.absent k ?_ h2 (notAspect hc (.inl hk)) (okc k hk).2
    rw [List.map_append, List.mem_append, not_or]
    refine ⟨?_, h1⟩
    rw [hb]
    intro hm
    have h1 := hown k hk
    simp only [List.mem_cons, List.not_mem_nil, or_false] at hm
    rcases hm with h | h | h | h | h | h | h | h | h | h
    all_goals first | exact h1.2 h | (rw [h] at h1; exact absurd h1.1 (by decide))

end

end Scheme
