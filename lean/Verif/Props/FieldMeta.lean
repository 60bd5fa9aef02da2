import Verif.Spec.FieldMeta
import Verif.Spec.Examples
import Verif.Props.Format

/-! C47: tables of field classes. -/

namespace Scheme

theorem assignAll_eq (t l : List (Str × Nat)) : assignAll t l = l.reverse ++ t := by
  induction l generalizing t with
  | nil => rfl
  | cons e r ih => rw [assignAll, ih]; simp

theorem inherit_eq (st : FieldTypes) (pick : FieldCls → List (Str × Nat)) (bs : List (Option Nat)) (t : List (Str × Nat)) :
    st.inherit pick bs.reverse t = bs.flatMap (st.baseTable pick) ++ t := by
  have key : ∀ (l : List (Option Nat)) t, st.inherit pick l t = l.reverse.flatMap (st.baseTable pick) ++ t := by
    intro l
    induction l with
    | nil => intro t; rfl
    | cons b r ih => intro t; rw [FieldTypes.inherit, ih]; simp [List.flatMap_append]
  rw [key, List.reverse_reverse]

theorem declared_iff {l : List (Str × Nat)} {k : Str} {v : Nat} : Declared l k v ↔ l.reverse.lookup k = some v := by
  rw [List.lookup_eq_some_iff]
  constructor
  · rintro ⟨b, a, rfl, h⟩
    refine ⟨a.reverse, b.reverse, by simp, ?_⟩
    intro p hp
    have := h p (List.mem_reverse.1 hp)
    simpa using fun he => this he.symm
  · rintro ⟨l1, l2, h1, h2⟩
    refine ⟨l2.reverse, l1.reverse, ?_, ?_⟩
    · have := congrArg List.reverse h1
      simpa using this
    · intro e he hk
      have := h2 e (List.mem_reverse.1 he)
      simp [hk] at this

/-- The classes after the declarations: each class has the tables of its bases and its own declarations. -/
def Tabled (u : Chars) (decls : List FieldDecl) (st : FieldTypes) : Prop :=
  st.classes.length = decls.length ∧
  (∀ (i : Nat) (d : FieldDecl), decls[i]? = some d → ∃ c : FieldCls, st.classes[i]? = some c ∧ c.type = lower u d.name ∧
    c.errors = d.errors.reverse ++ d.bases.flatMap (st.baseTable (·.errors)) ∧
    c.params = d.params.reverse ++ d.bases.flatMap (st.baseTable (·.params))) ∧
  (st.types = ((List.range decls.length).filterMap fun i => (decls[i]?).map fun d => (lower u d.name, i)).reverse)

theorem run_append (u : Chars) (l m : List FieldDecl) (st : FieldTypes) : st.run u (l ++ m) = (st.run u l).run u m := by
  induction l generalizing st with
  | nil => rfl
  | cons d r ih => rw [List.cons_append, FieldTypes.run, FieldTypes.run, ih]

theorem ordered_init {l : List FieldDecl} {d : FieldDecl} (h : Ordered (l ++ [d])) : Ordered l ∧ ∀ b, some b ∈ d.bases → b < l.length := by
  constructor
  · intro i x hx
    exact h i x (by rw [List.getElem?_append_left (List.getElem?_eq_some_iff.1 hx).1]; exact hx)
  · exact h l.length d List.getElem?_concat_length

theorem range_concat (u : Chars) (l : List FieldDecl) (d : FieldDecl) :
    ((List.range (l ++ [d]).length).filterMap fun i => ((l ++ [d])[i]?).map fun d => (lower u d.name, i)).reverse =
      (lower u d.name, l.length) :: ((List.range l.length).filterMap fun i => (l[i]?).map fun d => (lower u d.name, i)).reverse := by
  rw [List.length_append, List.length_singleton, List.range_succ, List.filterMap_append, List.reverse_append]
  simp only [List.filterMap_cons, List.getElem?_concat_length, Option.map_some, List.filterMap_nil, List.reverse_cons, List.reverse_nil,
    List.nil_append, List.cons_append]
  congr 2
  have key : ∀ r : List Nat, (∀ i ∈ r, i < l.length) → r.filterMap (fun i => ((l ++ [d])[i]?).map fun d => (lower u d.name, i)) =
      r.filterMap fun i => (l[i]?).map fun d => (lower u d.name, i) := by
    intro r
    induction r with
    | nil => intro _; rfl
    | cons i r ih =>
      intro hi
      rw [List.filterMap_cons, List.filterMap_cons, ih fun j hj => hi j (List.mem_cons_of_mem _ hj),
        List.getElem?_append_left (hi i (List.mem_cons_self ..))]
  exact key _ fun i hi => List.mem_range.1 hi

theorem tabled_run (u : Chars) (decls : List FieldDecl) (h : Ordered decls) : Tabled u decls (FieldTypes.init.run u decls) := by
  have key : ∀ n (decls : List FieldDecl), decls.length = n → Ordered decls → Tabled u decls (FieldTypes.init.run u decls) := by
    intro n
    induction n with
    | zero =>
      intro decls hn _
      cases decls with
      | nil => exact ⟨rfl, by simp, rfl⟩
      | cons _ _ => cases hn
    | succ n ih =>
      intro decls hn ho
      rcases List.eq_nil_or_concat decls with rfl | ⟨l, d, rfl⟩
      · cases hn
      · rw [List.concat_eq_append] at hn ho ⊢
        obtain ⟨ho1, ho2⟩ := ordered_init ho
        obtain ⟨h1, h2, h3⟩ := ih l (by simpa using hn) ho1
        rw [run_append]
        generalize FieldTypes.init.run u l = st at h1 h2 h3
        show Tabled u (l ++ [d]) (st.define u d)
        have hbase : ∀ pick (bs : List (Option Nat)), (∀ b, some b ∈ bs → b < l.length) →
            bs.flatMap ((st.define u d).baseTable pick) = bs.flatMap (st.baseTable pick) := by
          intro pick bs hb
          have : ∀ b ∈ bs, (st.define u d).baseTable pick b = st.baseTable pick b := by
            intro b hbm
            cases b with
            | none => rfl
            | some b =>
              have hlt := hb b hbm
              simp only [FieldTypes.baseTable, FieldTypes.define, Option.bind_some]
              rw [List.getElem?_append_left (by omega)]
          clear hb
          induction bs with
          | nil => rfl
          | cons b r ihb =>
            rw [List.flatMap_cons, List.flatMap_cons, this b (List.mem_cons_self ..), ihb fun b hb => this b (List.mem_cons_of_mem _ hb)]
        refine ⟨by simp [FieldTypes.define, h1], ?_, ?_⟩
        · intro i x hx
          rcases Nat.lt_or_ge i l.length with hlt | hge
          · rw [List.getElem?_append_left hlt] at hx
            obtain ⟨c, hc, hc1, hc2, hc3⟩ := h2 i x hx
            refine ⟨c, ?_, hc1, ?_, ?_⟩
            · simp only [FieldTypes.define]
              rw [List.getElem?_append_left (by omega)]; exact hc
            · rw [hc2, hbase _ _ fun b hb => Nat.lt_trans (ho1 i x hx b hb) hlt]
            · rw [hc3, hbase _ _ fun b hb => Nat.lt_trans (ho1 i x hx b hb) hlt]
          · have hi : i = l.length := by
              have := (List.getElem?_eq_some_iff.1 hx).1
              simp at this; omega
            subst hi
            rw [List.getElem?_concat_length] at hx
            cases hx
            refine ⟨⟨lower u d.name, assignAll (st.inherit (·.errors) d.bases.reverse []) d.errors,
              assignAll (st.inherit (·.params) d.bases.reverse []) d.params⟩, ?_, rfl, ?_, ?_⟩
            · simp only [FieldTypes.define]
              rw [← h1, List.getElem?_concat_length]
            · rw [hbase _ _ ho2]; simp only [assignAll_eq, inherit_eq, List.append_nil]
            · rw [hbase _ _ ho2]; simp only [assignAll_eq, inherit_eq, List.append_nil]
        · rw [range_concat, ← h3, ← h1]
          rfl
  exact key _ decls rfl h

/-- How a table answers for a class: its own last declaration, otherwise the first base that has the key. -/
def TableOf (decls : List FieldDecl) (own : FieldDecl → List (Str × Nat)) (get : Nat → Str → Option Nat) : Prop :=
  ∀ (i : Nat) (d : FieldDecl), decls[i]? = some d → ∀ k v, get i k = some v ↔
    Declared (own d) k v ∨ ((∀ w, ¬ Declared (own d) k w) ∧
      ∃ before b after, d.bases = before ++ some b :: after ∧ get b k = some v ∧ ∀ b', some b' ∈ before → get b' k = none)

/-- The entry of a class's table. -/
def FieldTypes.entry (st : FieldTypes) (pick : FieldCls → List (Str × Nat)) (i : Nat) (k : Str) : Option Nat :=
  (st.baseTable pick (some i)).lookup k

theorem lookup_flatMap {st : FieldTypes} {pick : FieldCls → List (Str × Nat)} {bs : List (Option Nat)} {k : Str} {v : Nat} :
    (bs.flatMap (st.baseTable pick)).lookup k = some v ↔
      ∃ before b after, bs = before ++ some b :: after ∧ st.entry pick b k = some v ∧ ∀ b', some b' ∈ before → st.entry pick b' k = none := by
  induction bs with
  | nil => simp
  | cons b r ih =>
    rw [List.flatMap_cons, lookup_append_or]
    constructor
    · intro h
      rcases hb : (st.baseTable pick b).lookup k with _ | w
      · rw [hb, Option.none_or] at h
        obtain ⟨before, b', after, h1, h2, h3⟩ := ih.1 h
        refine ⟨b :: before, b', after, by rw [h1]; rfl, h2, ?_⟩
        intro b'' hb''
        rcases List.mem_cons.1 hb'' with he | he
        · subst he; exact hb
        · exact h3 b'' he
      · rw [hb, Option.some_or] at h
        cases h
        cases b with
        | none => cases hb
        | some b => exact ⟨[], b, r, rfl, hb, by simp⟩
    · rintro ⟨before, b', after, h1, h2, h3⟩
      cases before with
      | nil =>
        rw [List.nil_append] at h1
        cases h1
        rw [show (st.baseTable pick (some b')).lookup k = some v from h2, Option.some_or]
      | cons x before =>
        rw [List.cons_append] at h1
        obtain ⟨rfl, h5⟩ := List.cons.inj h1
        have hx : (st.baseTable pick b).lookup k = none := by
          cases b with
          | none => rfl
          | some b => exact h3 b (List.mem_cons_self ..)
        rw [hx, Option.none_or]
        exact ih.2 ⟨before, b', after, h5, h2, fun b'' hb'' => h3 b'' (List.mem_cons_of_mem _ hb'')⟩

theorem tableOf_of {decls : List FieldDecl} {st : FieldTypes} {own : FieldDecl → List (Str × Nat)} {pick : FieldCls → List (Str × Nat)}
    (h : ∀ (i : Nat) (d : FieldDecl), decls[i]? = some d → ∃ c : FieldCls, st.classes[i]? = some c ∧ pick c = (own d).reverse ++ d.bases.flatMap (st.baseTable pick)) :
    TableOf decls own (st.entry pick) := by
  intro i d hd k v
  obtain ⟨c, hc, hp⟩ := h i d hd
  unfold FieldTypes.entry
  rw [show st.baseTable pick (some i) = pick c by simp [FieldTypes.baseTable, hc], hp, lookup_append_or]
  constructor
  · intro h
    rcases ho : (own d).reverse.lookup k with _ | w
    · rw [ho, Option.none_or] at h
      refine .inr ⟨?_, lookup_flatMap.1 h⟩
      intro w hw
      rw [declared_iff, ho] at hw; cases hw
    · rw [ho, Option.some_or] at h
      cases h
      exact .inl (declared_iff.2 ho)
  · rintro (h | ⟨h1, h2⟩)
    · rw [declared_iff.1 h, Option.some_or]
    · rcases ho : (own d).reverse.lookup k with _ | w
      · rw [Option.none_or]; exact lookup_flatMap.2 h2
      · exact absurd (declared_iff.2 ho) (h1 w)

/-- C47. Errors: a class knows an error token by its own last declaration of it, otherwise by the first base that knows
it. -/
theorem C47_errors (u : Chars) (decls : List FieldDecl) (h : Ordered decls) :
    TableOf decls (·.errors) ((FieldTypes.init.run u decls).entry (·.errors)) :=
  tableOf_of fun i d hd => by
    obtain ⟨c, h1, -, h2, -⟩ := (tabled_run u decls h).2.1 i d hd
    exact ⟨c, h1, h2⟩

/-- C47. Parameters: likewise. -/
theorem C47_parameters (u : Chars) (decls : List FieldDecl) (h : Ordered decls) :
    TableOf decls (·.params) ((FieldTypes.init.run u decls).entry (·.params)) :=
  tableOf_of fun i d hd => by
    obtain ⟨c, h1, -, -, h2⟩ := (tabled_run u decls h).2.1 i d hd
    exact ⟨c, h1, h2⟩

theorem known_iff {decls : List FieldDecl} (ho : Ordered decls) {own : FieldDecl → List (Str × Nat)} {get : Nat → Str → Option Nat}
    (h : TableOf decls own get) (k : Str) : ∀ (n i : Nat), i ≤ n → i < decls.length →
      ((get i k).isSome = true ↔ ∃ j d v, Descends decls i j ∧ decls[j]? = some d ∧ (k, v) ∈ own d) := by
  intro n
  induction n with
  | zero =>
    intro i hi hl
    have hi0 : i = 0 := by omega
    subst hi0
    have hd := List.getElem?_eq_getElem hl
    have key := h 0 _ hd k
    constructor
    · intro hs
      obtain ⟨v, hv⟩ := Option.isSome_iff_exists.1 hs
      rcases (key v).1 hv with ⟨b, a, he, -⟩ | ⟨-, b, b', a, he, -⟩
      · exact ⟨0, _, v, .refl 0, hd, by rw [he]; simp⟩
      · exact absurd (ho 0 _ hd b' (by rw [he]; simp)) (Nat.not_lt_zero _)
    · rintro ⟨j, d, v, hdj, hj, hm⟩
      cases hdj with
      | step h1 h2 _ => exact absurd (ho 0 _ h1 _ h2) (Nat.not_lt_zero _)
      | refl =>
        rw [hd] at hj; cases hj
        cases hg : get 0 k with
        | some _ => rfl
        | none =>
          exfalso
          rcases hr : (own decls[0]).reverse.lookup k with _ | w
          · rw [List.lookup_eq_none_iff] at hr
            have := hr (k, v) (List.mem_reverse.2 hm)
            simp at this
          · have := (key w).2 (.inl (declared_iff.2 hr))
            rw [hg] at this; cases this
  | succ n ih =>
    intro i hi hl
    have hd := List.getElem?_eq_getElem hl
    have key := h i _ hd k
    constructor
    · intro hs
      obtain ⟨v, hv⟩ := Option.isSome_iff_exists.1 hs
      rcases (key v).1 hv with ⟨b, a, he, -⟩ | ⟨-, b, b', a, he, hb', -⟩
      · exact ⟨i, _, v, .refl i, hd, by rw [he]; simp⟩
      · have hm : some b' ∈ decls[i].bases := by rw [he]; simp
        have hlt := ho i _ hd b' hm
        obtain ⟨j, d, w, h1, h2, h3⟩ := (ih b' (by omega) (by omega)).1 (by rw [hb']; rfl)
        exact ⟨j, d, w, .step hd hm h1, h2, h3⟩
    · rintro ⟨j, d, v, hdj, hj, hm⟩
      cases hg : get i k with
      | some _ => rfl
      | none =>
        exfalso
        have hno : ∀ w, ¬ Declared (own decls[i]) k w := by
          intro w hw
          have := (key w).2 (.inl hw)
          rw [hg] at this; cases this
        cases hdj with
        | refl =>
          rw [hd] at hj; cases hj
          rcases hr : (own decls[i]).reverse.lookup k with _ | w
          · rw [List.lookup_eq_none_iff] at hr
            have := hr (k, v) (List.mem_reverse.2 hm)
            simp at this
          · exact hno w (declared_iff.2 hr)
        | @step _ b _ d' h1 h2 h3 =>
          rw [hd] at h1; cases h1
          have hlt := ho i _ hd b h2
          have hb := (ih b (by omega) (by omega)).2 ⟨j, d, v, h3, hj, hm⟩
          -- the first base that knows the key gives the entry
          have hfirst : ∀ bs : List (Option Nat), some b ∈ bs → ∃ before b1 after, bs = before ++ some b1 :: after ∧ (get b1 k).isSome = true ∧
              ∀ b', some b' ∈ before → get b' k = none := by
            intro bs hbs
            induction bs with
            | nil => cases hbs
            | cons x r ihr =>
              have hcont : (∀ b', x = some b' → get b' k = none) → ∃ before b1 after, x :: r = before ++ some b1 :: after ∧ (get b1 k).isSome = true ∧
                  ∀ b', some b' ∈ before → get b' k = none := by
                intro hx
                have hr : some b ∈ r := by
                  rcases List.mem_cons.1 hbs with he | he
                  · rw [hx b he.symm] at hb; cases hb
                  · exact he
                obtain ⟨p, b1, q, e1, e2, e3⟩ := ihr hr
                refine ⟨x :: p, b1, q, by rw [e1]; rfl, e2, ?_⟩
                intro b' hb'
                rcases List.mem_cons.1 hb' with he | he
                · exact hx b' he.symm
                · exact e3 b' he
              cases x with
              | none => exact hcont (by simp)
              | some x =>
                cases hgx : get x k with
                | none => exact hcont (by rintro b' ⟨⟩; exact hgx)
                | some w => exact ⟨[], x, r, rfl, by rw [hgx]; rfl, by simp⟩
          obtain ⟨p, b1, q, e1, e2, e3⟩ := hfirst _ h2
          obtain ⟨w, hw⟩ := Option.isSome_iff_exists.1 e2
          have := (key w).2 (.inr ⟨hno, p, b1, q, e1, hw, e3⟩)
          rw [hg] at this; cases this

/-- C47. Nothing declared is lost: a class knows an error token exactly when it or a class it descends from declares
it. -/
theorem C47_errors_kept (u : Chars) (decls : List FieldDecl) (h : Ordered decls) (i : Nat) (hi : i < decls.length) (token : Str) :
    ((FieldTypes.init.run u decls).entry (·.errors) i token).isSome = true ↔
      ∃ j d v, Descends decls i j ∧ decls[j]? = some d ∧ (token, v) ∈ d.errors :=
  known_iff h (C47_errors u decls h) token i i (Nat.le_refl _) hi

/-- C47. Likewise for parameters. -/
theorem C47_parameters_kept (u : Chars) (decls : List FieldDecl) (h : Ordered decls) (i : Nat) (hi : i < decls.length) (name : Str) :
    ((FieldTypes.init.run u decls).entry (·.params) i name).isSome = true ↔
      ∃ j d v, Descends decls i j ∧ decls[j]? = some d ∧ (name, v) ∈ d.params :=
  known_iff h (C47_parameters u decls h) name i i (Nat.le_refl _) hi

/-- C47. A field type names the last class whose lower-cased name it is; reconstruction under any other name is
refused. -/
theorem C47_types (u : Chars) (decls : List FieldDecl) (h : Ordered decls) (t : Str) :
    (∀ i, (FieldTypes.init.run u decls).constructor t = .ok i ↔
      ∃ d, decls[i]? = some d ∧ lower u d.name = t ∧ ∀ (j : Nat) (d' : FieldDecl), i < j → decls[j]? = some d' → lower u d'.name ≠ t) ∧
    ((∀ d ∈ decls, lower u d.name ≠ t) → (FieldTypes.init.run u decls).constructor t = .error .valueError) := by
  have hty := (tabled_run u decls h).2.2
  unfold FieldTypes.constructor
  rw [hty]
  have key : ∀ n (decls : List FieldDecl), decls.length = n → ∀ i,
      ((List.range decls.length).filterMap fun i => (decls[i]?).map fun d => (lower u d.name, i)).reverse.lookup t = some i ↔
      ∃ d, decls[i]? = some d ∧ lower u d.name = t ∧ ∀ (j : Nat) (d' : FieldDecl), i < j → decls[j]? = some d' → lower u d'.name ≠ t := by
    intro n
    induction n with
    | zero =>
      intro decls hn i
      cases decls with
      | nil => simp
      | cons _ _ => cases hn
    | succ n ih =>
      intro decls hn i
      rcases List.eq_nil_or_concat decls with rfl | ⟨l, d, rfl⟩
      · cases hn
      · rw [List.concat_eq_append] at hn ⊢
        rw [range_concat, List.lookup_cons]
        by_cases ht : lower u d.name = t
        · have hb : (t == lower u d.name) = true := by simp [ht]
          simp only [hb, Option.some.injEq]
          constructor
          · rintro rfl
            refine ⟨d, List.getElem?_concat_length, ht, ?_⟩
            intro j d' hj hd'
            have := (List.getElem?_eq_some_iff.1 hd').1
            simp at this; omega
          · rintro ⟨d', h1, h2, h3⟩
            have hlt := (List.getElem?_eq_some_iff.1 h1).1
            simp at hlt
            rcases Nat.lt_or_ge i l.length with hl | hg
            · exact absurd ht (h3 _ d hl List.getElem?_concat_length)
            · omega
        · have hb : (t == lower u d.name) = false := by simpa using fun h => ht h.symm
          simp only [hb]
          rw [ih l (by simpa using hn) i]
          constructor
          · rintro ⟨d', h1, h2, h3⟩
            have hlt := (List.getElem?_eq_some_iff.1 h1).1
            refine ⟨d', by rw [List.getElem?_append_left hlt]; exact h1, h2, ?_⟩
            intro j d'' hj hd''
            rcases Nat.lt_or_ge j l.length with hl | hg
            · rw [List.getElem?_append_left hl] at hd''
              exact h3 j d'' hj hd''
            · have hj' : j = l.length := by
                have := (List.getElem?_eq_some_iff.1 hd'').1
                simp at this; omega
              subst hj'
              rw [List.getElem?_concat_length] at hd''
              cases hd''; exact ht
          · rintro ⟨d', h1, h2, h3⟩
            rcases Nat.lt_or_ge i l.length with hl | hg
            · rw [List.getElem?_append_left hl] at h1
              refine ⟨d', h1, h2, ?_⟩
              intro j d'' hj hd''
              exact h3 j d'' hj (by rw [List.getElem?_append_left (List.getElem?_eq_some_iff.1 hd'').1]; exact hd'')
            · have hi' : i = l.length := by
                have := (List.getElem?_eq_some_iff.1 h1).1
                simp at this; omega
              subst hi'
              rw [List.getElem?_concat_length] at h1
              cases h1; exact absurd h2 ht
  constructor
  · intro i
    rw [← key _ decls rfl i]
    split
    · rename_i j hj
      rw [hj]; simp
    · rename_i hj
      rw [hj]; simp
  · intro hno
    split
    · rename_i j hj
      obtain ⟨d, h1, h2, -⟩ := (key _ decls rfl j).1 hj
      exact absurd h2 (hno d (List.mem_of_getElem? h1))
    · rfl

namespace MetaEx

/-- A diamond: the base `A` declares an error that `C` replaces; `D` has the bases `B` and `C`. -/
def diamond : List FieldDecl :=
  [⟨c!"A", [none], [(c!"e", 0)], []⟩, ⟨c!"B", [some 0], [], []⟩, ⟨c!"C", [some 0], [(c!"e", 1)], []⟩, ⟨c!"D", [some 1, some 2], [], []⟩]

theorem diamond_ordered : Ordered diamond := by
  intro i d hd b hb
  have hlt := (List.getElem?_eq_some_iff.1 hd).1
  have hcases : i = 0 ∨ i = 1 ∨ i = 2 ∨ i = 3 := by simp [diamond] at hlt; omega
  rcases hcases with rfl | rfl | rfl | rfl <;> cases hd <;> simp at hb
  · omega
  · omega
  · omega

/-- The hypotheses are met by the diamond; `D` descends from `A` and knows its error. -/
example (u : Chars) : ((FieldTypes.init.run u diamond).entry (·.errors) 3 c!"e").isSome = true :=
  (known_iff diamond_ordered (C47_errors u diamond diamond_ordered) c!"e" 3 3 (Nat.le_refl _) (by decide)).2
    ⟨0, _, 0, .step (b := 1) rfl (by simp [diamond]) (.step (b := 0) rfl (by simp) (.refl 0)), rfl, by simp⟩

/-- Two classes whose names differ in case only: the later one is constructed. -/
example : (FieldTypes.init.run chars [⟨c!"Date", [none], [], []⟩, ⟨c!"DATE", [some 0], [], []⟩]).constructor c!"date" = .ok 1 := rfl

end MetaEx

/-- C47. The tables do not follow Python's method resolution order: in a diamond the base of the first base wins over
the replacement made by the second base, whose attribute Python would find. -/
theorem C47_diamond (u : Chars) :
    (FieldTypes.init.run u MetaEx.diamond).entry (·.errors) 3 c!"e" = some 0 ∧
    (FieldTypes.init.run u MetaEx.diamond).entry (·.errors) 2 c!"e" = some 1 := ⟨rfl, rfl⟩

end Scheme
