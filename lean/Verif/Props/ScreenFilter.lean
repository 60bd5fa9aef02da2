import Verif.Props.Screen

/-! C80: extraction with screening parameters and filtered schemas. -/

namespace Scheme

namespace SX

theorem pyEq_none_left {v : Val} (h : v ≠ .none) : pyEq .none v = false := by
  cases v <;> simp_all [pyEq, numOf]

theorem passes_iff {o : Outer} {params : Params} (hd : Definite params) {f : Field} :
    Passes o params true f ↔ Wanted o params f := by
  have hm : ∀ p ∈ params, (ParamMatches o f p ↔ pyEq (attrOf o f p.1) p.2 = true) := by
    intro p hp
    unfold ParamMatches
    by_cases ha : attrOf o f p.1 = .none
    · rw [ha, pyEq_none_left (hd p hp).1]
      simp [(hd p hp).2]
    · simp [ha]
  unfold Passes Wanted
  constructor
  · rintro (rfl | ⟨-, h⟩ | ⟨h, -⟩)
    · simp
    · exact fun p hp _ => (hm p hp).1 (h p hp)
    · cases h
  · intro h
    exact .inr (.inl ⟨rfl, fun p hp => (hm p hp).2 (h p hp (hd p hp).1)⟩)

theorem items_congr {env : Env} {rec rec' : Ext} {i i' : Field} {l : List Val}
    (h : ∀ x ∈ l, extractChild env rec i x = extractChild env rec' i' x) : extractItems env rec i l = extractItems env rec' i' l := by
  induction l with
  | nil => rfl
  | cons x r ih =>
    simp only [extractItems, h x (List.mem_cons_self ..), ih fun x hx => h x (List.mem_cons_of_mem _ hx)]

theorem entries_congr {env : Env} {rec rec' : Ext} {i i' : Field} {l : List (Val × Val)}
    (h : ∀ e ∈ l, extractChild env rec i e.2 = extractChild env rec' i' e.2) :
    extractEntries env rec i l = extractEntries env rec' i' l := by
  induction l with
  | nil => rfl
  | cons x r ih =>
    obtain ⟨k, x⟩ := x
    simp only [extractEntries, h (k, x) (List.mem_cons_self ..), ih fun x hx => h x (List.mem_cons_of_mem _ hx)]

theorem asked_cons (d : List (Val × Val)) (name : Str) (f : Field) (r : List (Str × Field)) :
    askedOf d ((name, f) :: r) =
      (((given d name).filter fun x => !x.isNone).map fun x => (Val.str name, f, x)).toList ++ askedOf d r := by
  unfold askedOf
  rw [List.filterMap_cons]
  cases ((given d name).filter fun x => !x.isNone).map fun x => (Val.str name, f, x) <;> simp

theorem takeAll_cons_congr {env : Env} {rec rec' : Ext} {k : Val} {f f' : Field} {x : Val} {l l' : List (Val × Field × Val)}
    (h : extractChild env rec f x = extractChild env rec' f' x) (hr : takeAll env rec l = takeAll env rec' l') :
    takeAll env rec ((k, f, x) :: l) = takeAll env rec' ((k, f', x) :: l') := by
  simp only [takeAll, h, hr]

theorem takeAll_cons_drop {env : Env} {rec : Ext} {k : Val} {f : Field} {x : Val} {l : List (Val × Field × Val)}
    (h : extractChild env rec f x = .error .excluded) : takeAll env rec ((k, f, x) :: l) = takeAll env rec l := by
  simp only [takeAll, h, notExcluded, except_bind_ok]
  cases takeAll env rec l <;> rfl

/-- Member by member: the same field by field. -/
theorem takeAll_fields {env : Env} {rec rec' : Ext} {d : List (Val × Val)} {l l' : List (Str × Field)}
    (hk : l'.map (·.1) = l.map (·.1))
    (h : ∀ e ∈ l.zip l', ∀ x, given d e.1.1 = some x → extractChild env rec e.1.2 x = extractChild env rec' e.2.2 x) :
    takeAll env rec (askedOf d l) = takeAll env rec' (askedOf d l') := by
  induction l generalizing l' with
  | nil =>
    cases l' with
    | nil => rfl
    | cons => simp at hk
  | cons e r ih =>
    cases l' with
    | nil => simp at hk
    | cons e' r' =>
      obtain ⟨name, f⟩ := e
      obtain ⟨name', f'⟩ := e'
      simp only [List.map_cons, List.cons.injEq] at hk
      obtain ⟨rfl, hk⟩ := hk
      have ih := ih hk fun e he => h e (List.mem_cons_of_mem _ he)
      rw [asked_cons, asked_cons]
      cases hx : ((given d name').filter fun x => !x.isNone) with
      | none => exact ih
      | some x => exact takeAll_cons_congr (h _ (List.mem_cons_self ..) x (Option.filter_eq_some_iff.1 hx).1) ih

theorem nameMembers_take {env : Env} {rec : Ext} {d : List (Val × Val)} {l : List (Str × Field)}
    (h : ∀ e ∈ l, ∃ g a s, resolve env e.2 = some g ∧ g.name = some (a :: s)) :
    takeAll env rec (askedOf d (nameMembers env l)) = takeAll env rec (askedOf d l) := by
  refine takeAll_fields nameMembers_keys.symm fun e he x hx => ?_
  have hz : ∀ l : List (Str × Field), (∀ e ∈ l, ∃ g a s, resolve env e.2 = some g ∧ g.name = some (a :: s)) →
      ∀ e ∈ (nameMembers env l).zip l, ∃ g a s, resolve env e.2.2 = some g ∧ g.name = some (a :: s) ∧
        e.1.2 = nameMember e.2.1 g := by
    intro l
    induction l with
    | nil => simp [nameMembers]
    | cons e r ih =>
      obtain ⟨name, f⟩ := e
      intro h e he
      simp only [nameMembers, List.zip_cons_cons] at he
      rcases List.mem_cons.1 he with rfl | he
      · obtain ⟨g, a, s, h1, h2⟩ := h _ (List.mem_cons_self ..)
        exact ⟨g, a, s, h1, h2, by simp only at h1; simp [h1]⟩
      · exact ih (fun e he => h e (List.mem_cons_of_mem _ he)) e he
  obtain ⟨g, a, s, h1, h2, h3⟩ := hz l h e he
  have hgd : ∀ s, g ≠ .undef s := by rintro s rfl; simp [Field.name, Field.common?] at h2
  rw [h3, nameMember_named h2]
  simp only [extractChild, h1, resolve_of_defined hgd]

theorem keySet_take {env : Env} {rec : Ext} {d : List (Val × Val)} {l : List (Str × Field)} {name : Str} {f f' : Field}
    (hl : l.lookup name = some f) (h : ∀ x, extractChild env rec f x = extractChild env rec f' x) :
    takeAll env rec (askedOf d (keySet name f' l)) = takeAll env rec (askedOf d l) := by
  induction l with
  | nil => simp at hl
  | cons e r ih =>
    obtain ⟨k, g⟩ := e
    by_cases hk : k = name
    · subst hk
      simp only [List.lookup_cons, beq_self_eq_true, Option.some.injEq] at hl
      subst hl
      have : keySet k f' ((k, g) :: r) = (k, f') :: r := by simp [keySet]
      rw [this, asked_cons, asked_cons]
      cases hx : ((given d k).filter fun x => !x.isNone) with
      | none => rfl
      | some x => exact takeAll_cons_congr (h x).symm rfl
    · have hb : (name == k) = false := by simpa using fun e : name = k => hk e.symm
      simp only [List.lookup_cons, hb] at hl
      have : keySet name f' ((k, g) :: r) = (k, g) :: keySet name f' r := by simp [keySet, hk]
      rw [this, asked_cons, asked_cons]
      have ih := ih hl
      cases hx : ((given d k).filter fun x => !x.isNone) with
      | none => exact ih
      | some x => exact takeAll_cons_congr rfl ih

theorem nameMembers_lookup {env : Env} {l : List (Str × Field)} {name : Str} {c : Common} {k : Leaf} {a : Char} {s : Str}
    (h : l.lookup name = some (.leaf c k)) (hn : c.name = some (a :: s)) :
    (nameMembers env l).lookup name = some (.leaf c k) := by
  induction l with
  | nil => simp at h
  | cons e r ih =>
    obtain ⟨k', g⟩ := e
    simp only [nameMembers, List.lookup_cons] at h ⊢
    split at h
    · cases h
      simp only [resolve, Option.getD_some]
      rw [nameMember_named (f := .leaf c k) (a := a) (s := s) hn]
    · exact ih h

theorem filterMembers_same {env : Env} {rec : Bool → Field → Except EditErr Filtered} {defn : List (Str × Field)}
    {m : List (Str × Field) × Bool} (h : filterMembers env rec defn = .ok m) (hm : m.2 = false) : m.1 = defn := by
  induction defn generalizing m with
  | nil => simp only [filterMembers, Except.ok.injEq] at h; subst h; rfl
  | cons e t ih =>
    obtain ⟨name, f⟩ := e
    simp only [filterMembers, except_bind_eq_ok, except_pure, Except.ok.injEq] at h
    obtain ⟨x, hx, r', hr', rfl⟩ := h
    cases x with
    | gone => cases hm
    | new g => cases hm
    | same =>
      have := ih hr' hm
      simp only [keepMember, this]

/-- The members that filtering leaves, asked without parameters, give what all members give with parameters. -/
theorem filterMembers_take {env : Env} {F : Bool → Field → Except EditErr Filtered} {rec rec' : Ext} {d : List (Val × Val)}
    {defn : List (Str × Field)} {m : List (Str × Field) × Bool} (h : filterMembers env F defn = .ok m)
    (hkeep : ∀ e ∈ defn, ∀ g y, resolve env e.2 = some g → F true g = .ok y → y ≠ .gone → ∀ x, given d e.1 = some x →
      extractChild env rec e.2 x = extractChild env rec' (y.get e.2) x)
    (hgone : ∀ e ∈ defn, ∀ g, resolve env e.2 = some g → F true g = .ok .gone → ∀ x, given d e.1 = some x →
      rec g x = .error .excluded) :
    takeAll env rec (askedOf d defn) = takeAll env rec' (askedOf d m.1) := by
  induction defn generalizing m with
  | nil => simp only [filterMembers, Except.ok.injEq] at h; subst h; rfl
  | cons e t ih =>
    obtain ⟨name, f⟩ := e
    simp only [filterMembers, except_bind_eq_ok, except_pure, Except.ok.injEq] at h
    obtain ⟨y, hy, r', hr', rfl⟩ := h
    obtain ⟨g, hg, hy'⟩ := filterChild_ok.1 hy
    have ih := ih hr' (fun e he => hkeep e (List.mem_cons_of_mem _ he)) (fun e he => hgone e (List.mem_cons_of_mem _ he))
    have hkeep := hkeep _ (List.mem_cons_self ..) g
    have hgone := hgone _ (List.mem_cons_self ..) g hg
    rw [asked_cons]
    cases hx : ((given d name).filter fun x => !x.isNone) with
    | none =>
      cases y with
      | gone => exact ih
      | same => simp only [keepMember]; rw [asked_cons, hx]; exact ih
      | new g1 => simp only [keepMember]; rw [asked_cons, hx]; exact ih
    | some x =>
      have hgx := (Option.filter_eq_some_iff.1 hx).1
      cases y with
      | gone =>
        refine (takeAll_cons_drop ?_).trans ih
        simp only [extractChild, hg]
        exact hgone hy' x hgx
      | same =>
        simp only [keepMember]; rw [asked_cons, hx]
        exact takeAll_cons_congr (hkeep .same hg hy' (by simp) x hgx) ih
      | new g1 =>
        simp only [keepMember]; rw [asked_cons, hx]
        exact takeAll_cons_congr (hkeep (.new g1) hg hy' (by simp) x hgx) ih

theorem filterMembers_lookup {env : Env} {F : Bool → Field → Except EditErr Filtered} {defn : List (Str × Field)}
    {m : List (Str × Field) × Bool} (h : filterMembers env F defn = .ok m) {name : Str} {c : Common} {k : Leaf}
    (hl : defn.lookup name = some (.leaf c k)) (hs : F true (.leaf c k) = .ok .same) : m.1.lookup name = some (.leaf c k) := by
  induction defn generalizing m with
  | nil => simp at hl
  | cons e t ih =>
    obtain ⟨k', f⟩ := e
    simp only [filterMembers, except_bind_eq_ok, except_pure, Except.ok.injEq] at h
    obtain ⟨y, hy, r', hr', rfl⟩ := h
    obtain ⟨g, hg, hy'⟩ := filterChild_ok.1 hy
    simp only [List.lookup_cons] at hl
    split at hl
    · rename_i hk
      cases hl
      cases hg
      rw [hs] at hy'
      cases hy'
      simp [keepMember, List.lookup_cons, hk]
    · rename_i hk
      have := ih hr' hl
      cases y <;> simp [keepMember, List.lookup_cons, hk, this]

theorem identities_congr {o : Outer} {d : List (Val × Val)} {vs vs' : List (Val × List (Str × Field))} (h : vs'.map (·.1) = vs.map (·.1)) :
    extractIdentities o (.dict d) vs = extractIdentities o (.dict d) vs' := by
  induction vs generalizing vs' with
  | nil =>
    cases vs' with
    | nil => rfl
    | cons => simp at h
  | cons e r ih =>
    cases vs' with
    | nil => simp at h
    | cons e' r' =>
      obtain ⟨i, a⟩ := e
      obtain ⟨i', a'⟩ := e'
      simp only [List.map_cons, List.cons.injEq] at h
      obtain ⟨rfl, h⟩ := h
      simp only [extractIdentities, ih h]

theorem filterVariants_get {env : Env} {F : Bool → Field → Except EditErr Filtered} {vs : List (Val × List (Str × Field))}
    {r : List (Val × List (Str × Field)) × Bool} (h : filterVariants env F vs = .ok r) :
    r.1.map (·.1) = vs.map (·.1) ∧ ∀ id, (variantGet vs id = none → variantGet r.1 id = none) ∧
      ∀ defn, variantGet vs id = some defn → ∃ m, filterMembers env F defn = .ok m ∧
        variantGet r.1 id = some (if m.2 && !m.1.isEmpty then m.1 else defn) := by
  induction vs generalizing r with
  | nil => simp only [filterVariants, Except.ok.injEq] at h; subst h; simp [variantGet]
  | cons v t ih =>
    obtain ⟨i, defn⟩ := v
    simp only [filterVariants, except_bind_eq_ok, except_pure, Except.ok.injEq, filterStructure, except_map_eq_ok] at h
    obtain ⟨x, ⟨m, hm, rfl⟩, r', hr', rfl⟩ := h
    obtain ⟨h1, h2⟩ := ih hr'
    refine ⟨by simp [h1], fun id => ?_⟩
    simp only [variantGet]
    by_cases hi : pyEq id i = true
    · simp only [hi, if_true, reduceCtorEq, false_implies, true_and, Option.some.injEq]
      rintro _ rfl
      refine ⟨m, hm, ?_⟩
      by_cases hc : (m.2 && !m.1.isEmpty) = true <;> simp [hc]
    · simp only [hi, Bool.false_eq_true, if_false]
      exact h2 id

theorem nameVariants_get {env : Env} {disc : Field} {vs : List (Val × List (Str × Field))} :
    (nameVariants env disc vs).map (·.1) = vs.map (·.1) ∧ ∀ id, (variantGet vs id = none → variantGet (nameVariants env disc vs) id = none) ∧
      ∀ defn, variantGet vs id = some defn → ∃ i, variantGet (nameVariants env disc vs) id =
        some (keySet (disc.name.getD []) (discFor env disc i) (nameMembers env defn)) := by
  induction vs with
  | nil => simp [nameVariants, variantGet]
  | cons v t ih =>
    obtain ⟨i, defn⟩ := v
    refine ⟨by simp [nameVariants, ih.1], fun id => ?_⟩
    simp only [nameVariants, variantGet]
    by_cases hi : pyEq id i = true
    · simp only [hi, if_true, reduceCtorEq, false_implies, true_and, Option.some.injEq]
      rintro _ rfl
      exact ⟨i, rfl⟩
    · simp only [hi, Bool.false_eq_true, if_false]
      exact ih.2 id

theorem clone_leaf {env : Env} {n : Nat} {c : Common} {k : Leaf} {g : Field} (h : clone env n (.leaf c k) = .ok g) :
    g = .leaf { c with aspects := cloneAspects env k c.aspects } k := by
  cases n with
  | zero => cases h
  | succ n =>
    simp only [clone, cloneStep] at h
    exact (initErrors_ok.1 h).1

theorem extract_leaf {env : Env} {o : Outer} {n : Nat} {c : Common} {k : Leaf} (hx : c.extor = none) (x : Val) :
    extract env o true [] (n + 1) (.leaf c k) x = .ok x := by
  rw [extract_succ (by intro c' hc; cases hc; exact hx) (by simp), excluded_nil]
  simp only [Bool.false_eq_true, if_false, extractBody]
  split
  · rename_i h; rw [none_of_isNone h]
  · rfl

theorem slots_congr {env : Env} {rec rec' : Ext} {fs fs' : List Field} {l : List Val} (hlen : fs'.length = fs.length)
    (h : ∀ p ∈ fs.zip fs', ∀ x ∈ l, extractChild env rec p.1 x = extractChild env rec' p.2 x) :
    extractSlots env rec fs l = extractSlots env rec' fs' l := by
  induction fs generalizing fs' l with
  | nil =>
    cases fs' with
    | nil => rfl
    | cons => simp at hlen
  | cons f fs ih =>
    cases fs' with
    | nil => simp at hlen
    | cons f' fs' =>
      cases l with
      | nil => rfl
      | cons x r =>
        have h1 := h (f, f') (List.mem_cons_self ..) x (List.mem_cons_self ..)
        have ih := @ih fs' r (by simpa using hlen) fun p hp x hx => h p (List.mem_cons_of_mem _ hp) x (List.mem_cons_of_mem _ hx)
        simp only at h1
        simp only [extractSlots, h1, ih]

theorem filterSlots_zip {env : Env} {F : Bool → Field → Except EditErr Filtered} {fs : List Field}
    {r : List Field × Bool} (h : filterSlots env F true fs = .ok r) :
    r.1.length = fs.length ∧ ∀ p ∈ fs.zip r.1, ∃ g y, p.1 ∈ fs ∧ resolve env p.1 = some g ∧ F true g = .ok y ∧ y ≠ .gone ∧ p.2 = y.get p.1 := by
  induction fs generalizing r with
  | nil => simp only [filterSlots, Except.ok.injEq] at h; subst h; simp
  | cons f t ih =>
    simp only [filterSlots, except_bind_eq_ok] at h
    obtain ⟨x, hx, h⟩ := h
    obtain ⟨g, hg, hx'⟩ := filterChild_ok.1 hx
    have h' : x ≠ .gone ∧ ∃ r', filterSlots env F true t = .ok r' ∧ r = (x.get f :: r'.1, x.isNew || r'.2) := by
      cases x with
      | gone => cases h
      | same =>
        simp only [except_bind_eq_ok, except_pure, Except.ok.injEq] at h
        obtain ⟨r', h1, h2⟩ := h; exact ⟨by simp, r', h1, h2.symm⟩
      | new g1 =>
        simp only [except_bind_eq_ok, except_pure, Except.ok.injEq] at h
        obtain ⟨r', h1, h2⟩ := h; exact ⟨by simp, r', h1, h2.symm⟩
    obtain ⟨hne, r', hr', rfl⟩ := h'
    obtain ⟨h1, h2⟩ := ih hr'
    refine ⟨by simp [h1], fun p hp => ?_⟩
    rcases List.mem_cons.1 hp with rfl | hp
    · exact ⟨g, x, List.mem_cons_self .., hg, hx', hne, rfl⟩
    · obtain ⟨g, y, a, b⟩ := h2 p hp
      exact ⟨g, y, List.mem_cons_of_mem _ a, b⟩

theorem filterSlots_same {env : Env} {F : Bool → Field → Except EditErr Filtered} {fs : List Field}
    {r : List Field × Bool} (h : filterSlots env F true fs = .ok r) (hr : r.2 = false) : r.1 = fs := by
  obtain ⟨h1, h2⟩ := filterSlots_zip h
  obtain ⟨-, h3⟩ := filterSlots_spec h
  apply List.ext_getElem h1
  intro i hi hi'
  obtain ⟨g, y, a, b, c, d, e⟩ := h2 (fs[i], r.1[i]) (by
    rw [List.mem_iff_getElem]; exact ⟨i, by simp [hi, hi'], by simp⟩)
  rw [h3 hr _ a g b] at c
  cases c
  exact e

/-- What extraction by filtered schemas asks of the schema. -/
structure Filtering (env : Env) (o : Outer) (params : Params) (f : Field) : Prop where
  noExtractor : NoExtractor f
  notUnion : NotUnion f
  shape : KeepsShape env (Wanted o params) f
  names : GoodNames f
  some : SomeMemberPasses env o params f
  built : Built env f

theorem filter_extract (env : Env) (o : Outer) (params : Params) (hdef : Definite params) (n : Nat) (f : Field) (v : Val) (k : Nat)
    (x : Filtered) (hn : v.depth < n) (hw : Everywhere env (Filtering env o params) f)
    (h : filter env o params k true f = .ok x) (hx : x ≠ .gone) :
    extract env o true params n f v = extract env o true [] n (x.result f) v := by
  induction n generalizing f v k x with
  | zero => omega
  | succ n ih =>
    cases k with
    | zero => cases h
    | succ k =>
    have hf : ∀ s, f ≠ .undef s := by rintro s rfl; simp [filter] at h
    have hpf : Passes o params true f := Classical.byContradiction fun hn => by
      rw [(C33_filter_gone env o params k true f hf).2 hn] at h; cases h; exact hx rfl
    have hcommon : (x.result f).common? = f.common? := by
      cases x with
      | gone => exact absurd rfl hx
      | same => rfl
      | new g => exact filter_new_common h
    have hf' : ∀ s, x.result f ≠ .undef s := by
      cases x with
      | gone => exact absurd rfl hx
      | same => exact hf
      | new g => exact filter_new_defined h
    have hx' : NoExtractor (x.result f) := fun c hc => hw.here.noExtractor c (by rw [← hcommon]; exact hc)
    rw [extract_succ hw.here.noExtractor hf, extract_succ hx' hf', excluded_nil, excluded_iff.2 ((passes_iff hdef).1 hpf)]
    simp only [Bool.false_eq_true, if_false]
    by_cases hv : v.isNone = true
    · simp [hv]
    simp only [hv, Bool.false_eq_true, if_false]
    rw [filter_succ hf, filterOwn_iff.2 hpf] at h
    simp only [if_true] at h
    have hkeep : ∀ e g y, resolve env e = some g → Child env f g → filter env o params k true g = .ok y → y ≠ .gone →
        ∀ z, z.depth < v.depth → extractChild env (extract env o true params n) e z =
          extractChild env (extract env o true [] n) (y.get e) z := by
      intro e g y hg hc hy hyg z hz
      have := ih g z k y (by omega) (hw.child hc) hy hyg
      cases y with
      | gone => exact absurd rfl hyg
      | same => simp only [extractChild, hg, Filtered.get]; exact this
      | new g1 => simp only [extractChild, hg, Filtered.get, resolve_of_defined (filter_new_defined hy)]; exact this
    have hgone : ∀ g, Child env f g → filter env o params k true g = .ok .gone → ∀ z, z.depth < v.depth →
        extract env o true params n g z = .error .excluded := by
      intro g hc hy z hz
      have hgd : ∀ s, g ≠ .undef s := by
        rintro s rfl
        cases k <;> simp [filter] at hy
      have hnw : ¬ Wanted o params g := by
        cases k with
        | zero => cases hy
        | succ k => rw [← passes_iff hdef]; exact (C33_filter_gone env o params k true g hgd).1 hy
      cases n with
      | zero => omega
      | succ n =>
        rw [extract_succ (hw.child hc).here.noExtractor hgd]
        cases hex : excluded o g params with
        | true => rfl
        | false => exact absurd (excluded_iff.1 hex) hnw
    have hitem : ∀ l, (v = .list l ∨ v = .tuple l) → ∀ x ∈ l, x.depth < v.depth := by
      intro l hl x hx
      have := depthL_mem hx
      rcases hl with rfl | rfl <;> simp only [Val.depth] <;> omega
    -- members, before and after
    have hmem : ∀ d, v = .dict d → ∀ defn, (∀ e ∈ defn, ∀ g, resolve env e.2 = some g → Child env f g) → (∀ e ∈ defn, Named env e.2) →
        (defn = [] ∨ ∃ e ∈ defn, ∃ g, resolve env e.2 = some g ∧ Passes o params true g) →
        ∀ m, filterMembers env (filter env o params k) defn = .ok m →
        takeAll env (extract env o true params n) (askedOf d defn) = takeAll env (extract env o true [] n) (askedOf d m.1) ∧
        (m.2 = true → m.1 ≠ []) ∧ ∀ e ∈ m.1, ∃ g a s, resolve env e.2 = some g ∧ g.name = some (a :: s) := by
      intro d hd defn hcd hnm hsome m hm
      obtain ⟨h1, h2, h3, h4⟩ := filterMembers_spec hm
      refine ⟨filterMembers_take hm ?_ ?_, ?_, ?_⟩
      · intro e he g y hg hy hyg z hz
        exact hkeep e.2 g y hg (hcd e he g hg) hy hyg z (by subst hd; exact given_depth hz)
      · intro e he g hg hy z hz
        exact hgone g (hcd e he g hg) hy z (by subst hd; exact given_depth hz)
      · intro hm2 hm1
        rcases hsome with rfl | ⟨e, he, g, hg, hp⟩
        · simp only [filterMembers, Except.ok.injEq] at hm; subst hm; cases hm2
        · obtain ⟨g0, y, hg0, hy⟩ := h2 e he
          rw [hg] at hg0; cases hg0
          have hyg : y ≠ .gone := by
            rintro rfl
            have hgd : ∀ s, g ≠ .undef s := by
              rintro s rfl
              cases k <;> simp [filter] at hy
            cases k with
            | zero => cases hy
            | succ k => exact (C33_filter_gone env o params k true g hgd).1 hy hp
          have := (h3 e.1 (y.get e.2)).2 ⟨e.2, g, y, he, hg, hy, hyg, rfl⟩
          rw [hm1] at this; cases this
      · rintro ⟨nm, g'⟩ he
        obtain ⟨f0, g0, y, a, b, c, d, rfl⟩ := (h3 nm g').1 he
        obtain ⟨a', s', hn⟩ := hnm _ a g0 b
        cases y with
        | gone => exact absurd rfl d
        | same => exact ⟨g0, a', s', b, hn⟩
        | new g1 =>
          refine ⟨g1, a', s', resolve_of_defined (filter_new_defined c), ?_⟩
          rw [← hn]; unfold Field.name; rw [filter_new_common c]
    cases f with
    | undef s => exact absurd rfl (hf s)
    | union c fs => exact absurd rfl (hw.here.notUnion c fs)
    | leaf c k => simp only [filterBody, Except.ok.injEq] at h; subst h; rfl
    | sequence c i a b u =>
      simp only [filterBody, except_bind_eq_ok] at h
      obtain ⟨y, hy, h⟩ := h
      obtain ⟨gi, hgi, hy'⟩ := filterChild_ok.1 hy
      have hseq : ∀ i', (∀ z, z.depth < v.depth → extractChild env (extract env o true params n) i z =
          extractChild env (extract env o true [] n) i' z) →
          extractSequence env (extract env o true params n) i v = extractSequence env (extract env o true [] n) i' v := by
        intro i' hi'
        cases v with
        | list l => simp only [extractSequence]; rw [items_congr fun x hx => hi' x (hitem l (.inl rfl) x hx)]
        | tuple l => simp only [extractSequence]; rw [items_congr fun x hx => hi' x (hitem l (.inr rfl) x hx)]
        | _ => rfl
      cases y with
      | gone => simp [filterOnly] at h
      | same =>
        simp only [filterOnly, Except.ok.injEq] at h; subst h
        exact hseq i (hkeep i gi .same hgi (.item hgi) hy' (by simp))
      | new g1 =>
        simp only [filterOnly, except_map_eq_ok, liftEdit_ok, initErrors_ok] at h
        obtain ⟨a, ⟨rfl, -⟩, rfl⟩ := h
        exact hseq g1 (hkeep i gi (.new g1) hgi (.item hgi) hy' (by simp))
    | map c ky vl r =>
      simp only [filterBody, except_bind_eq_ok] at h
      obtain ⟨y, hy, h⟩ := h
      obtain ⟨gi, hgi, hy'⟩ := filterChild_ok.1 hy
      have hseq : ∀ i', (∀ z, z.depth < v.depth → extractChild env (extract env o true params n) vl z =
          extractChild env (extract env o true [] n) i' z) →
          extractMap env (extract env o true params n) vl v = extractMap env (extract env o true [] n) i' v := by
        intro i' hi'
        cases v with
        | dict d =>
          simp only [extractMap]
          rw [entries_congr fun e he => hi' e.2 (by
            have := (depthD_mem he).2
            simp only [Val.depth]; omega)]
        | _ => rfl
      cases y with
      | gone => simp [filterOnly] at h
      | same =>
        simp only [filterOnly, Except.ok.injEq] at h; subst h
        exact hseq vl (hkeep vl gi .same hgi (.value hgi) hy' (by simp))
      | new g1 =>
        simp only [filterOnly, except_map_eq_ok, liftEdit_ok, cloneMapWith, except_bind_eq_ok, initErrors_ok] at h
        obtain ⟨a, ⟨k', -, rfl, -⟩, rfl⟩ := h
        exact hseq g1 (hkeep vl gi (.new g1) hgi (.value hgi) hy' (by simp))
    | tuple c vs =>
      simp only [filterBody, except_bind_eq_ok] at h
      obtain ⟨y, hy, h⟩ := h
      obtain ⟨h1, h2⟩ := filterSlots_zip hy
      have htup : extractTuple env (extract env o true params n) vs v = extractTuple env (extract env o true [] n) y.1 v := by
        have hc : ∀ l, (v = .list l ∨ v = .tuple l) → extractSlots env (extract env o true params n) vs l =
            extractSlots env (extract env o true [] n) y.1 l := by
          intro l hl
          refine slots_congr h1 fun p hp z hz => ?_
          obtain ⟨g, y', a, b, c', d, e⟩ := h2 p hp
          rw [e]
          exact hkeep p.1 g y' b (.tuple a b) c' d z (hitem l hl z hz)
        cases v with
        | list l => simp only [extractTuple, hc l (.inl rfl)]
        | tuple l => simp only [extractTuple, hc l (.inr rfl)]
        | _ => rfl
      split at h
      · simp only [except_map_eq_ok, liftEdit_ok, initErrors_ok] at h
        obtain ⟨a, ⟨rfl, -⟩, rfl⟩ := h
        exact htup
      · rename_i hy2
        cases h
        have := filterSlots_same hy (by simpa using hy2)
        rw [this] at htup
        exact htup
    | «structure» c defn s ko =>
      simp only [filterBody, except_bind_eq_ok, filterStructure, except_map_eq_ok] at h
      obtain ⟨y, ⟨m, hm, rfl⟩, h⟩ := h
      cases v with
      | dict d =>
        obtain ⟨k1, k2, k3⟩ := hmem d rfl defn (fun e he g hg => .member he hg) hw.here.built hw.here.some m hm
        split at h
        · rename_i defn' hd
          simp only [except_map_eq_ok, liftEdit_ok, initErrors_ok] at h
          obtain ⟨a, ⟨rfl, -⟩, rfl⟩ := h
          split at hd
          · cases hd
            simp only [extractBody, Filtered.result, extractPlain, members_eq]
            rw [k1, nameMembers_take k3]
          · cases hd
        · rename_i hd
          cases h
          have hm2 : m.2 = false := by
            cases hm2 : m.2 with
            | false => rfl
            | true =>
              cases hm1 : m.1 with
              | nil => exact absurd hm1 (k2 hm2)
              | cons a r => simp [hm2, hm1] at hd
          rw [filterMembers_same hm hm2] at k1
          simp only [extractBody, Filtered.result, extractPlain, members_eq, k1]
      | _ =>
        split at h
        · simp only [except_map_eq_ok, liftEdit_ok, initErrors_ok] at h
          obtain ⟨a, ⟨rfl, -⟩, rfl⟩ := h
          rfl
        · cases h; rfl
    | poly c di vs s ko =>
      simp only [filterBody, except_bind_eq_ok] at h
      obtain ⟨y, hy, h⟩ := h
      obtain ⟨g1, g2⟩ := filterVariants_get hy
      obtain ⟨⟨dc, dk, rfl⟩, hbv⟩ := hw.here.built
      have hdx : dc.extor = none := (hw.child .disc).here.noExtractor dc rfl
      cases v with
      | dict d =>
        have hv : ∀ i defn, (i, defn) ∈ vs → _ := fun i defn hi =>
          hmem d rfl defn (fun e he g hg => .variant hi he hg) (hbv _ hi).1 (hw.here.some _ hi)
        split at h
        · simp only [except_map_eq_ok, liftEdit_ok, clonePolyWith, except_bind_eq_ok, initErrors_ok] at h
          obtain ⟨a, ⟨d', hd', rfl, -⟩, rfl⟩ := h
          obtain rfl := clone_leaf hd'
          obtain ⟨n1, n2⟩ := @nameVariants_get env (.leaf { dc with aspects := cloneAspects env dk dc.aspects } dk) y.1
          have hname : (Field.leaf { dc with aspects := cloneAspects env dk dc.aspects } dk).name = (Field.leaf dc dk).name := rfl
          simp only [extractBody, Filtered.result, extractPoly, hname]
          cases hid : getMember o (.dict d) (.str ((Field.leaf dc dk).name.getD [])) with
          | error e => rfl
          | ok id =>
            dsimp only
            by_cases ht : id.truthy = true
            · simp only [ht, if_true, variantAt]
              by_cases hh : hashable id = true
              · simp only [hh, if_true]
                cases hvar : variantGet vs id with
                | none => rw [(n2 id).1 ((g2 id).1 hvar)]; rfl
                | some defn =>
                  obtain ⟨m, hm, hm'⟩ := (g2 id).2 defn hvar
                  obtain ⟨i', hi'⟩ := (n2 id).2 _ hm'
                  rw [hi']
                  obtain ⟨i, hi, -⟩ := variantGet_mem' hvar
                  obtain ⟨k1, k2, k3⟩ := hv i defn hi m hm
                  have hif : (if m.2 && !m.1.isEmpty then m.1 else defn) = m.1 := by
                    cases hm2 : m.2 with
                    | false => simp [filterMembers_same hm hm2]
                    | true =>
                      have := k2 hm2
                      cases hm1 : m.1 with
                      | nil => exact absurd hm1 this
                      | cons => simp
                  simp only [except_bind_ok, members_eq, hif]
                  rw [k1]
                  obtain ⟨-, cd, kd, hlk⟩ := hw.here.names _ hi
                  have hwd : Wanted o params (.leaf cd kd) := hw.here.shape ((passes_iff hdef).1 hpf) _ hi _ hlk
                  have hcl : Child env (.poly c (.leaf dc dk) vs s ko) (.leaf cd kd) := .variant hi (mem_of_lookup hlk) rfl
                  have hsame : filter env o params k true (.leaf cd kd) = .ok .same := by
                    cases k with
                    | zero =>
                      obtain ⟨-, q2, -, -⟩ := filterMembers_spec hm
                      obtain ⟨g0, y0, hg0, hy0⟩ := q2 _ (mem_of_lookup hlk)
                      cases hy0
                    | succ k =>
                      exact C33_filter_leaf env o params k true _ (.inl ⟨_, _, rfl⟩) ((passes_iff hdef).2 hwd)
                  have hl1 := filterMembers_lookup hm hlk hsame
                  obtain ⟨g0, a0, s0, hg0, hn0⟩ := k3 _ (mem_of_lookup hl1)
                  cases hg0
                  have hl2 := nameMembers_lookup (env := env) hl1 (a := a0) (s := s0) hn0
                  cases n with
                  | zero =>
                    simp only [Val.depth] at hn
                    omega
                  | succ n =>
                  refine congrArg _ (Eq.symm (Eq.trans (keySet_take hl2 ?_) (nameMembers_take k3)))
                  intro z
                  simp only [extractChild, resolve, discFor]
                  rw [extract_leaf ((hw.child hcl).here.noExtractor cd rfl)]
                  exact (extract_leaf (by exact hdx) z).symm
              · simp only [hh, Bool.false_eq_true, if_false]; rfl
            · simp only [ht, Bool.false_eq_true, if_false]
              rw [identities_congr (vs' := nameVariants env (.leaf { dc with aspects := cloneAspects env dk dc.aspects } dk) y.1)
                (n1.trans g1)]
        · rename_i hy2
          cases h
          simp only [extractBody, Filtered.result, extractPoly]
          cases hid : getMember o (.dict d) (.str ((Field.leaf dc dk).name.getD [])) with
          | error e => rfl
          | ok id =>
            dsimp only
            by_cases ht : id.truthy = true
            · simp only [ht, if_true, variantAt]
              by_cases hh : hashable id = true
              · simp only [hh, if_true]
                cases hvar : variantGet vs id with
                | none => rfl
                | some defn =>
                  simp only [except_bind_ok, members_eq]
                  obtain ⟨i, hi, -⟩ := variantGet_mem' hvar
                  obtain ⟨m, hm, hc⟩ := (filterVariants_spec hy).2 (by simpa using hy2) _ hi
                  obtain ⟨k1, k2, -⟩ := hv i defn hi m hm
                  have hm2 : m.2 = false := by
                    cases hm2 : m.2 with
                    | false => rfl
                    | true =>
                      have := k2 hm2
                      cases hm1 : m.1 with
                      | nil => exact absurd hm1 this
                      | cons a r => simp [hm2, hm1] at hc
                  rw [filterMembers_same hm hm2] at k1
                  simp only at k1
                  rw [k1]
              · simp only [hh, Bool.false_eq_true, if_false]; rfl
            · simp only [ht, Bool.false_eq_true, if_false]
      | _ =>
        split at h
        · simp only [except_map_eq_ok, liftEdit_ok, clonePolyWith, except_bind_eq_ok, initErrors_ok] at h
          obtain ⟨a, ⟨d', hd', rfl, -⟩, rfl⟩ := h
          rfl
        · cases h; rfl

/-! ### Depth -/

theorem depthL_le {l : List Val} {N : Nat} (h : ∀ x ∈ l, x.depth ≤ N) : depthL l ≤ N := by
  induction l with
  | nil => simp [depthL]
  | cons x r ih =>
    have h1 := h x (List.mem_cons_self ..)
    have h2 := ih fun x hx => h x (List.mem_cons_of_mem _ hx)
    rw [depthL]; omega

theorem depthD_le {l : List (Val × Val)} {N : Nat} (h : ∀ e ∈ l, e.1.depth ≤ N ∧ e.2.depth ≤ N) : depthD l ≤ N := by
  induction l with
  | nil => simp [depthD]
  | cons e r ih =>
    obtain ⟨k, x⟩ := e
    obtain ⟨h1, h1'⟩ := h _ (List.mem_cons_self ..)
    have h2 := ih fun x hx => h x (List.mem_cons_of_mem _ hx)
    rw [depthD]
    simp only at h1 h1'
    omega

theorem asked_depth {d : List (Val × Val)} {defn : List (Str × Field)} : ∀ p ∈ askedOf d defn, p.1.depth ≤ depthD d ∧ p.2.2.depth ≤ depthD d := by
  intro p hp
  obtain ⟨name, -, hk, hg, -⟩ := asked_mem hp
  rw [← dictGet_str_eq_given] at hg
  obtain ⟨k, hk', hkk⟩ := dictGet_mem hg
  rw [pyEq_str_left] at hkk; subst hkk
  have := depthD_mem hk'
  rw [hk]; exact this

mutual
theorem screened_depth {env : Env} {S : Field → Prop} {b : Bool} {f : Field} {v w : Val} :
    (h : Screened env S b f v w) → w.depth ≤ v.depth
  | .null _ _ => Nat.le_refl _
  | .leaf _ => Nat.le_refl _
  | @Screened.sequence _ _ _ c item mn mx u l v out hs hl hp => by
    have := pieces_depth hp (N := depthL l) fun p hp => by
      obtain ⟨x, hx, rfl⟩ := List.mem_map.1 hp
      exact ⟨by simp [Val.depth], depthL_mem hx⟩
    have := depthL_le (l := out.map (·.2)) (N := depthL l) fun x hx => by
      obtain ⟨e, he, rfl⟩ := List.mem_map.1 hx
      exact (this e he).2
    rcases hl with rfl | rfl <;> simp only [Val.depth] <;> omega
  | @Screened.tuple _ _ _ c fs l v out hs hl hle hp => by
    have := pieces_depth hp (N := depthL l) fun p hp => by
      obtain ⟨x, hx, rfl⟩ := List.mem_map.1 hp
      exact ⟨by simp [Val.depth], depthL_mem (List.of_mem_zip hx).2⟩
    have := depthL_le (l := out.map (·.2)) (N := depthL l) fun x hx => by
      obtain ⟨e, he, rfl⟩ := List.mem_map.1 hx
      exact (this e he).2
    rcases hl with rfl | rfl <;> simp only [Val.depth] <;> omega
  | @Screened.map _ _ _ c key value req d out hs hp => by
    have := depthD_le <| pieces_depth hp (N := depthD d) fun p hp => by
      obtain ⟨x, hx, rfl⟩ := List.mem_map.1 hp
      exact depthD_mem hx
    simp only [Val.depth]; omega
  | @Screened.structure _ _ _ c defn s ko d out hs hp => by
    have := depthD_le <| pieces_depth hp (N := depthD d) asked_depth
    simp only [Val.depth]; omega
  | @Screened.variant _ _ _ c disc vs s ko d out id defn hs hid ht hh hvar hp => by
    have := depthD_le <| pieces_depth hp (N := depthD d) asked_depth
    simp only [Val.depth]; omega
  | .nothing .. => by simp [Val.depth, depthD]
theorem pieces_depth {env : Env} {S : Field → Prop} {b : Bool} {l : List (Val × Field × Val)} {out : List (Val × Val)} {N : Nat} :
    (h : Pieces env S b l out) → (∀ p ∈ l, p.1.depth ≤ N ∧ p.2.2.depth ≤ N) → ∀ e ∈ out, e.1.depth ≤ N ∧ e.2.depth ≤ N
  | .nil, _ => by simp
  | @Pieces.keep _ _ _ k f g x w r out hg hs hr, hN => by
    intro e he
    have h1 := hN _ (List.mem_cons_self ..)
    rcases List.mem_cons.1 he with rfl | he
    · exact ⟨h1.1, Nat.le_trans (screened_depth hs) h1.2⟩
    · exact pieces_depth hr (fun p hp => hN p (List.mem_cons_of_mem _ hp)) e he
  | @Pieces.drop _ _ _ k f g x r out hg hd hs hr, hN => pieces_depth hr fun p hp => hN p (List.mem_cons_of_mem _ hp)
end

end SX

/-- C80. Extracting with parameters, for schemas without unions and extractors, given enough stack for the nesting of the
subject: the call returns exactly what the fields wanted by the parameters take from the subject, and returns nothing
else from nothing else. -/
theorem C80_exact (env : Env) (o : Outer) (params : Params) (n : Nat) (f : Field) (v w : Val) (hn : v.depth < n)
    (hx : Everywhere env NoExtractor f) (hu : Everywhere env NotUnion f) :
    extract env o true params n f v = .ok w ↔ Screened env (Wanted o params) true f v w :=
  (SX.agrees env o params n f v hn hx hu).ok w

/-- C80. FieldExcludedError is raised exactly when the field itself is not wanted; fields below never make it raise
this. -/
theorem C80_excluded (env : Env) (o : Outer) (params : Params) (n : Nat) (f : Field) (v : Val) (hn : v.depth < n)
    (hf : ∀ s, f ≠ .undef s) (hx : Everywhere env NoExtractor f) (hu : Everywhere env NotUnion f) :
    extract env o true params n f v = .error .excluded ↔ ¬ Wanted o params f := by
  rw [(SX.agrees env o params n f v hn hx hu).excl]
  exact ⟨fun h => h.2, fun h => ⟨hf, h⟩⟩

/-- C80. Extracting in two steps: when the first extraction wants everything that the second one wants, and keeps the
shape (all values of tuples, and discriminators, whose identities are truthy), then the second extraction gives the same
from the result of the first as from the original subject. -/
theorem C80_after (env : Env) (o : Outer) (params params' : Params) (n : Nat) (f : Field) (v w r : Val) (hn : v.depth < n)
    (hx : Everywhere env NoExtractor f) (hu : Everywhere env NotUnion f) (hg : Everywhere env GoodNames f)
    (hk : Everywhere env (KeepsShape env (Wanted o params')) f) (hp : ∀ g, Wanted o params g → Wanted o params' g)
    (h : Screened env (Wanted o params') false f v w) :
    extract env o true params n f v = .ok r ↔ extract env o true params n f w = .ok r := by
  rw [C80_exact env o params n f v r hn hx hu,
    C80_exact env o params n f w r (Nat.lt_of_le_of_lt (SX.screened_depth h) hn) hx hu]
  exact SX.again_screened hp h (fun g hr => ⟨hk g hr, hg g hr⟩) r

mutual
theorem SX.screened_lift {env : Env} {S : Field → Prop} {f : Field} {v w : Val} : (h : Screened env S false f v w) → Screened env S true f v w
  | .null h1 h2 => .null h1 h2
  | .leaf h => .leaf h
  | .sequence h1 h2 h3 => .sequence h1 h2 (SX.pieces_lift h3)
  | .map h1 h3 => .map h1 (SX.pieces_lift h3)
  | .tuple h1 h2 h3 h4 => .tuple h1 h2 h3 (SX.pieces_lift h4)
  | .structure h1 h2 => .structure h1 (SX.pieces_lift h2)
  | .variant h1 h2 h3 h4 h5 h6 => .variant h1 h2 h3 h4 h5 (SX.pieces_lift h6)
theorem SX.pieces_lift {env : Env} {S : Field → Prop} {l : List (Val × Field × Val)} {out : List (Val × Val)} :
    (h : Pieces env S false l out) → Pieces env S true l out
  | .nil => .nil
  | .keep h1 h2 h3 => .keep h1 (SX.screened_lift h2) (SX.pieces_lift h3)
  | .drop h1 h2 h3 h4 => .drop h1 h2 h3 (SX.pieces_lift h4)
end

/-- C80. Extracting again with the same parameters changes nothing, when the parameters keep the shape. -/
theorem C80_again (env : Env) (o : Outer) (params : Params) (n : Nat) (f : Field) (v w : Val) (hn : v.depth < n)
    (hx : Everywhere env NoExtractor f) (hu : Everywhere env NotUnion f) (hg : Everywhere env GoodNames f)
    (hk : Everywhere env (KeepsShape env (Wanted o params)) f) (h : Screened env (Wanted o params) false f v w) :
    extract env o true params n f w = .ok w :=
  (C80_after env o params params n f v w w hn hx hu hg hk (fun _ h => h) h).1
    ((C80_exact env o params n f v w hn hx hu).2 (SX.screened_lift h))

/-- C80. Extracting with parameters is extracting by the filtered schema: for parameters that are neither None nor equal
to False, `f.extract(v, **params)` and `f.filter(all=True, **params).extract(v)` have the same outcome, results and
exceptions alike, provided that the schema can be filtered, that no structure loses all its members, and that
discriminators are wanted. -/
theorem C80_filter (env : Env) (o : Outer) (params : Params) (hd : Definite params) (n k : Nat) (f : Field) (v : Val) (x : Filtered)
    (hn : v.depth < n) (hx : Everywhere env NoExtractor f) (hu : Everywhere env NotUnion f) (hg : Everywhere env GoodNames f)
    (hk : Everywhere env (KeepsShape env (Wanted o params)) f) (hs : Everywhere env (SomeMemberPasses env o params) f)
    (hb : Everywhere env (Built env) f) (h : filter env o params k true f = .ok x) (hgone : x ≠ .gone) :
    extract env o true params n f v = extract env o true [] n (x.result f) v :=
  SX.filter_extract env o params hd n f v k x hn (fun g hr => ⟨hx g hr, hu g hr, hk g hr, hg g hr, hs g hr, hb g hr⟩) h hgone

/-- C33. An attribute that is missing or None: it matches no parameter of `screen` other than None, while for `filter` it
counts as False. -/
theorem C33_missing (o : Outer) (f : Field) (all : Bool) (attr : Str) (v : Val) (h : attrOf o f attr = .none) (hv : v ≠ .none) :
    screen o f [(attr, v)] = false ∧ (Passes o [(attr, v)] all f ↔ pyEq (.bool false) v = true) := by
  constructor
  · simp [screen, h, SX.pyEq_none_left hv, SX.isNone_of_ne hv]
  · cases all <;> simp [Passes, ParamMatches, h]

example : ∃ f, attrOf Ex.outer f c!"hidden" = .none ∧ screen Ex.outer f [(c!"hidden", .bool false)] = false :=
  ⟨.leaf {} (.integer none none), rfl, (C33_missing Ex.outer _ true _ _ rfl (by simp)).1⟩

/-! ### Deviations -/

namespace Ex

def wantRequired : Params := [(c!"required", .bool true)]
def wantedInt : Field := .leaf { name := some c!"a", required := true } (.integer none none)
def otherInt : Field := .leaf { name := some c!"b" } (.integer none none)
def plainKind : Field := .poly { required := true } (.leaf { name := some c!"kind" } (.integer none none))
  [(.int 1, [(c!"a", wantedInt), (c!"kind", .leaf { name := some c!"kind", constant := .int 1 } (.integer none none))])] true []

/-- A required list of pairs and a remark. -/
def wantedPair : Field := .structure { required := true } [(c!"a", wantedInt), (c!"b", otherInt)] true []
def wantedPair' : Field := .structure { required := true } [(c!"a", wantedInt)] true []
def wantedXs (i : Field) : Field := .sequence { name := some c!"xs", required := true } i none none false
def wantedList : Field := .structure { required := true } [(c!"xs", wantedXs wantedPair), (c!"b", otherInt)] true []
def wantedList' : Field := .structure { required := true } [(c!"xs", wantedXs wantedPair')] true []

end Ex

/-- C80. A tuple loses the values of fields that are not wanted, and the others move up: extracting again from what was
extracted raises IndexError. -/
theorem C80_tuple_moves :
    extract Ex.env Ex.outer true Ex.wantRequired 3 (.tuple { required := true } [Ex.otherInt, Ex.wantedInt]) (.tuple [.int 1, .int 2]) =
      .ok (.tuple [.int 2]) ∧
    extract Ex.env Ex.outer true Ex.wantRequired 3 (.tuple { required := true } [Ex.otherInt, Ex.wantedInt]) (.tuple [.int 2]) =
      .error (.py .indexError) := by
  refine ⟨?_, ?_⟩ <;>
    simp [extract, extractStep, Ex.wantRequired, Ex.wantedInt, Ex.otherInt, excluded, screen, attrOf, Field.common?, commonAttr, pyEq,
      numOf, numEq, Val.isNone, applyExtractor, extractor, extractBody, extractTuple, extractSlots, notExcluded, extractChild,
      resolve, Except.map]

/-- C80. A union does not go on to the next field when one is not wanted: the whole union counts as excluded, although
its second field is wanted and takes the value. -/
theorem C80_union_excluded :
    extract Ex.env Ex.outer true Ex.wantRequired 3 Ex.wantedInt (.int 1) = .ok (.int 1) ∧
    extract Ex.env Ex.outer true Ex.wantRequired 3 (.union { required := true } [Ex.otherInt, Ex.wantedInt]) (.int 1) =
      .error .excluded := by
  refine ⟨?_, ?_⟩ <;>
    simp [extract, extractStep, Ex.wantRequired, Ex.wantedInt, Ex.otherInt, excluded, screen, attrOf, Field.common?, commonAttr, pyEq,
      numOf, numEq, Val.isNone, applyExtractor, extractor, unionExtractor, extractBody, extractUnion, extractChild, resolve]

/-- C80. The parameter False: filtering keeps a field without the attribute, extraction excludes it. -/
theorem C80_false_parameter :
    filter Ex.env Ex.outer [(c!"hidden", .bool false)] 3 true Ex.wantedInt = .ok .same ∧
    extract Ex.env Ex.outer true [(c!"hidden", .bool false)] 3 Ex.wantedInt (.int 1) = .error .excluded := by
  refine ⟨?_, ?_⟩ <;>
    simp [filter, filterOwn, filterLoop, candidateOf, filterBody, extract, extractStep, Ex.wantedInt, Ex.outer, excluded, screen, attrOf, Field.common?,
      commonAttr, pyEq, numOf, numEq, Val.isNone]

/-- C80. A structure none of whose members are wanted gives nothing, while filtering returns it unfiltered. -/
theorem C80_none_wanted :
    let f : Field := .structure { required := true } [(c!"b", Ex.otherInt)] true []
    extract Ex.env Ex.outer true Ex.wantRequired 3 f (.dict [(.str c!"b", .int 1)]) = .ok (.dict []) ∧
    filter Ex.env Ex.outer Ex.wantRequired 3 true f = .ok .same ∧
    extract Ex.env Ex.outer true [] 3 f (.dict [(.str c!"b", .int 1)]) = .ok (.dict [(.str c!"b", .int 1)]) := by
  refine ⟨?_, ?_, ?_⟩ <;>
    simp [filter, filterOwn, filterLoop, candidateOf, filterBody, filterStructure, filterMembers, filterChild, keepMember, extract, extractStep,
      Ex.wantRequired, Ex.otherInt, excluded, screen, attrOf, Field.common?,
      commonAttr, pyEq, numOf, numEq, Val.isNone, applyExtractor, extractor, extractBody, extractPlain, extractMembers, memberValue,
      getMember, dictGet, notExcluded, extractChild, resolve, Except.map]

/-! ### The hypotheses at work -/

/-- The filtered schema. -/
theorem Ex.wantedList_filtered : filter Ex.env Ex.outer Ex.wantRequired 5 true Ex.wantedList = .ok (.new Ex.wantedList') := by
  simp [filter, filterOwn, filterLoop, candidateOf, attrOf, Ex.wantRequired, Ex.wantedList, Ex.wantedList', Ex.wantedXs, Ex.wantedPair,
    Ex.wantedPair', Ex.wantedInt, Ex.otherInt, Field.common?, commonAttr, pyEq, numOf, numEq,
    filterBody, filterStructure, filterMembers, filterChild, resolve, keepMember, Except.map, liftEdit, initErrors, nameMembers,
    nameMember, Field.setCommon, filterOnly]

theorem Ex.wanted_iff {c : Common} {f : Field} (h : f.common? = some c) : Wanted Ex.outer Ex.wantRequired f ↔ c.required = true := by
  unfold Wanted Ex.wantRequired
  simp only [List.mem_singleton, forall_eq, ne_eq, reduceCtorEq, not_false_eq_true, forall_const]
  cases hr : c.required <;> simp [attrOf, h, commonAttr, hr, pyEq, numOf, numEq]

/-- C80. A discriminator that is not wanted is dropped although the variant was chosen by it: extracting again raises
KeyError. -/
theorem C80_discriminator_dropped :
    extract Ex.env Ex.outer true Ex.wantRequired 3 Ex.plainKind (.dict [(.str c!"kind", .int 1), (.str c!"a", .int 7)]) =
      .ok (.dict [(.str c!"a", .int 7)]) ∧
    extract Ex.env Ex.outer true Ex.wantRequired 3 Ex.plainKind (.dict [(.str c!"a", .int 7)]) = .error (.py .keyError) := by
  have hleaf : ∀ c k, c.extor = none → Everywhere Ex.env (fun f => NoExtractor f ∧ NotUnion f) (.leaf c k) := by
    intro c k hc
    exact .leaf ⟨(fun c' h => by cases h; exact hc), fun _ _ h => by cases h⟩
  have h : Everywhere Ex.env (fun f => NoExtractor f ∧ NotUnion f) Ex.plainKind := by
    refine .mk' ⟨(fun c' h => by cases h; rfl), fun _ _ h => by cases h⟩ ?_
    intro g hg
    cases hg with
    | disc => exact hleaf _ _ rfl
    | variant hv hm hr =>
      simp only [List.mem_singleton, Prod.mk.injEq] at hv
      obtain ⟨-, rfl⟩ := hv
      simp only [List.mem_cons, Prod.mk.injEq, List.not_mem_nil, or_false] at hm
      rcases hm with ⟨-, rfl⟩ | ⟨-, rfl⟩ <;> cases hr <;> exact hleaf _ _ rfl
  refine ⟨?_, ?_⟩
  · refine (C80_exact Ex.env Ex.outer Ex.wantRequired 3 Ex.plainKind _ _ (by decide) (fun g hr => (h g hr).1) (fun g hr => (h g hr).2)).2 ?_
    refine .variant (id := .int 1) (out := [(.str c!"a", .int 7)]) ((Ex.wanted_iff rfl).2 rfl) rfl rfl rfl
      (defn := [(c!"a", Ex.wantedInt), (c!"kind", .leaf { name := some c!"kind", constant := .int 1 } (.integer none none))]) ?_ ?_
    · simp [variantIn, pyEq, numOf, numEq]
    · refine .keep (g := Ex.wantedInt) rfl (.leaf ((Ex.wanted_iff rfl).2 rfl)) ?_
      exact .drop (g := .leaf { name := some c!"kind", constant := .int 1 } (.integer none none)) rfl (by simp)
        (fun hh => by rw [Ex.wanted_iff rfl] at hh; cases hh) .nil
  · simp [extract, extractStep, Ex.wantRequired, Ex.plainKind, excluded, screen, attrOf, Field.common?, commonAttr, pyEq,
      numOf, numEq, Val.isNone, applyExtractor, extractor, extractBody, extractPoly, getMember, dictGet, Field.name]

theorem Ex.wantedList_fits : Everywhere Ex.env (SX.Filtering Ex.env Ex.outer Ex.wantRequired) Ex.wantedList := by
  have hleaf : ∀ c k, c.extor = none → Everywhere Ex.env (SX.Filtering Ex.env Ex.outer Ex.wantRequired) (.leaf c k) := by
    intro c k hc
    refine .leaf ⟨(fun c' h => by cases h; exact hc), (fun _ _ h => by cases h), trivial, trivial, trivial, trivial⟩
  have hpass : Passes Ex.outer Ex.wantRequired true Ex.wantedInt := Ex.passes_required rfl
  have hpass2 : Passes Ex.outer Ex.wantRequired true (Ex.wantedXs Ex.wantedPair) := by
    refine (SX.passes_iff ?_).2 ((Ex.wanted_iff rfl).2 rfl)
    intro p hp
    cases List.mem_singleton.1 hp
    exact ⟨by simp, by simp [pyEq, numOf, numEq]⟩
  have hnamed : ∀ (c : Common) (k : Leaf) (a : Char) (s : Str), c.name = some (a :: s) → Named Ex.env (.leaf c k) := by
    intro c k a s h g hg
    cases hg
    exact ⟨a, s, h⟩
  have hpair : Everywhere Ex.env (SX.Filtering Ex.env Ex.outer Ex.wantRequired) Ex.wantedPair := by
    refine .mk' ⟨(fun c' h => by cases h; rfl), (fun _ _ h => by cases h), trivial, ?_, ?_, ?_⟩ ?_
    · show (List.map _ _).Nodup
      decide
    · exact .inr ⟨_, List.mem_cons_self .., _, rfl, hpass⟩
    · intro e he
      simp only [List.mem_cons, List.not_mem_nil, or_false] at he
      rcases he with rfl | rfl
      · exact hnamed _ _ _ _ rfl
      · exact hnamed _ _ _ _ rfl
    · intro g hg
      cases hg with
      | member hm hr =>
        simp only [List.mem_cons, Prod.mk.injEq, List.not_mem_nil, or_false] at hm
        rcases hm with ⟨-, rfl⟩ | ⟨-, rfl⟩ <;> cases hr <;> exact hleaf _ _ rfl
  have hxs : Everywhere Ex.env (SX.Filtering Ex.env Ex.outer Ex.wantRequired) (Ex.wantedXs Ex.wantedPair) := by
    refine .mk' ⟨(fun c' h => by cases h; rfl), (fun _ _ h => by cases h), trivial, trivial, trivial, trivial⟩ ?_
    intro g hg
    cases hg with
    | item hr => cases hr; exact hpair
  refine .mk' ⟨(fun c' h => by cases h; rfl), (fun _ _ h => by cases h), trivial, ?_, ?_, ?_⟩ ?_
  · show (List.map _ _).Nodup
    decide
  · exact .inr ⟨_, List.mem_cons_self .., _, rfl, hpass2⟩
  · intro e he
    simp only [List.mem_cons, List.not_mem_nil, or_false] at he
    rcases he with rfl | rfl
    · intro g hg
      cases hg
      exact ⟨_, _, rfl⟩
    · exact hnamed _ _ _ _ rfl
  · intro g hg
    cases hg with
    | member hm hr =>
      simp only [List.mem_cons, Prod.mk.injEq, List.not_mem_nil, or_false] at hm
      rcases hm with ⟨-, rfl⟩ | ⟨-, rfl⟩
      · cases hr; exact hxs
      · cases hr; exact hleaf _ _ rfl

/-- What is wanted of a list of pairs: `{'b': 3, 'xs': [{'a': 1, 'b': 2}]}` gives `{'xs': [{'a': 1}]}`. -/
theorem Ex.wantedList_screened :
    Screened Ex.env (Wanted Ex.outer Ex.wantRequired) false Ex.wantedList
      (.dict [(.str c!"b", .int 3), (.str c!"xs", .list [.dict [(.str c!"a", .int 1), (.str c!"b", .int 2)]])])
      (.dict [(.str c!"xs", .list [.dict [(.str c!"a", .int 1)]])]) := by
  have hw : ∀ {f : Field} {c : Common}, f.common? = some c → c.required = true → Wanted Ex.outer Ex.wantRequired f :=
    fun h h' => (Ex.wanted_iff h).2 h'
  have hnw : ∀ {f : Field} {c : Common}, f.common? = some c → c.required = false → ¬ Wanted Ex.outer Ex.wantRequired f :=
    fun h h' hh => by rw [Ex.wanted_iff h, h'] at hh; cases hh
  refine .structure (out := [(.str c!"xs", .list [.dict [(.str c!"a", .int 1)]])]) (hw rfl rfl) ?_
  refine Pieces.keep (g := Ex.wantedXs Ex.wantedPair) rfl ?_ (.drop (g := Ex.otherInt) rfl (by simp [Ex.otherInt]) (hnw rfl rfl) .nil)
  refine Screened.sequence (out := [(.none, .dict [(.str c!"a", .int 1)])]) (l := [.dict [(.str c!"a", .int 1), (.str c!"b", .int 2)]])
    (hw rfl rfl) (.inl rfl) ?_
  refine .keep (g := Ex.wantedPair) rfl ?_ .nil
  refine .structure (out := [(.str c!"a", .int 1)]) (hw rfl rfl) ?_
  exact .keep (g := Ex.wantedInt) rfl (.leaf (hw rfl rfl)) (.drop (g := Ex.otherInt) rfl (by simp [Ex.otherInt]) (hnw rfl rfl) .nil)

example (v : Val) (n : Nat) (hn : v.depth < n) :
    extract Ex.env Ex.outer true Ex.wantRequired n Ex.wantedList v = extract Ex.env Ex.outer true [] n Ex.wantedList' v := by
  have h := Ex.wantedList_fits
  refine C80_filter Ex.env Ex.outer Ex.wantRequired ?_ n 5 Ex.wantedList v (.new Ex.wantedList') hn (fun g hr => (h g hr).noExtractor)
    (fun g hr => (h g hr).notUnion) (fun g hr => (h g hr).names) (fun g hr => (h g hr).shape) (fun g hr => (h g hr).some)
    (fun g hr => (h g hr).built) Ex.wantedList_filtered (by simp)
  intro p hp
  cases List.mem_singleton.1 hp
  exact ⟨by simp, by simp [pyEq, numOf, numEq]⟩

example : extract Ex.env Ex.outer true Ex.wantRequired 9 Ex.wantedList (.dict [(.str c!"xs", .list [.dict [(.str c!"a", .int 1)]])]) =
    .ok (.dict [(.str c!"xs", .list [.dict [(.str c!"a", .int 1)]])]) := by
  have h := Ex.wantedList_fits
  exact C80_again Ex.env Ex.outer Ex.wantRequired 9 Ex.wantedList _ _ (by decide) (fun g hr => (h g hr).noExtractor)
    (fun g hr => (h g hr).notUnion) (fun g hr => (h g hr).names) (fun g hr => (h g hr).shape) Ex.wantedList_screened

end Scheme
