import Verif.Spec.Format
import Verif.Lemmas.Str
import Verif.Lemmas.Basic
import Verif.Spec.Examples

/-! C46: the registry of formats. -/

namespace Scheme

theorem truthyText_some {o : Option Str} {s : Str} : truthyText o = some s ↔ o = some s ∧ s ≠ [] := by
  rcases o with _ | _ | ⟨c, r⟩
  · simp [truthyText]
  · simp only [truthyText, Option.some.injEq, reduceCtorEq, false_iff]
    rintro ⟨rfl, h⟩; exact h rfl
  · simp only [truthyText, Option.some.injEq]
    constructor
    · rintro rfl; exact ⟨rfl, by simp⟩
    · exact (·.1)

theorem extTokens_mem {l : List Str} {toks : List FTok} (h : extTokens l = .ok toks) (t : FTok) :
    t ∈ toks ↔ ∃ e, '.' :: e ∈ l ∧ t = .text ('.' :: e) := by
  induction l generalizing toks with
  | nil => cases h; simp
  | cons x r ih =>
    cases x with
    | nil => cases h
    | cons c e =>
      rw [extTokens] at h
      obtain ⟨l', hl, h⟩ := except_bind_eq_ok.1 h
      have ih := ih hl
      cases h
      split
      · rename_i hc; subst hc
        rw [List.mem_cons, ih]
        constructor
        · rintro (rfl | ⟨e', he', rfl⟩)
          · exact ⟨e, List.mem_cons_self .., rfl⟩
          · exact ⟨e', List.mem_cons_of_mem _ he', rfl⟩
        · rintro ⟨e', he', rfl⟩
          rcases List.mem_cons.1 he' with he' | he'
          · exact .inl (by rw [he'])
          · exact .inr ⟨e', he', rfl⟩
      · rename_i hc
        rw [ih]
        constructor
        · rintro ⟨e', he', rfl⟩; exact ⟨e', List.mem_cons_of_mem _ he', rfl⟩
        · rintro ⟨e', he', rfl⟩
          rcases List.mem_cons.1 he' with he' | he'
          · exact absurd (List.cons.inj he').1.symm hc
          · exact ⟨e', he', rfl⟩

theorem formatTokens_mem {c : FormatCls} {i : Nat} {toks : List FTok} (h : formatTokens c i = .ok toks) (t : FTok) :
    t ∈ toks ↔ ∃ n, c.name = some n ∧ n ≠ [] ∧
      (t = .cls i ∨ t = .text n ∨ (∃ m, c.mimetype = some m ∧ m ≠ [] ∧ t = .text m) ∨
        ∃ exts e, c.extensions = some exts ∧ '.' :: e ∈ exts ∧ t = .text ('.' :: e)) := by
  unfold formatTokens at h
  split at h
  · rename_i hn
    cases h
    simp only [List.not_mem_nil, false_iff]
    rintro ⟨n, h1, h2, -⟩
    rw [truthyText_some.2 ⟨h1, h2⟩] at hn; cases hn
  · rename_i n hn
    obtain ⟨hn1, hn2⟩ := truthyText_some.1 hn
    obtain ⟨exts, he, h⟩ := except_bind_eq_ok.1 h
    cases h
    have hext : t ∈ exts ↔ ∃ exts e, c.extensions = some exts ∧ '.' :: e ∈ exts ∧ t = .text ('.' :: e) := by
      rw [extTokens_mem he]
      cases c.extensions with
      | none => simp
      | some l => simp
    have hmime : t ∈ mimeTokens c.mimetype ↔
        ∃ m, c.mimetype = some m ∧ m ≠ [] ∧ t = .text m := by
      unfold mimeTokens
      split
      · rename_i m hm
        obtain ⟨hm1, hm2⟩ := truthyText_some.1 hm
        rw [List.mem_singleton]
        constructor
        · intro h; exact ⟨m, hm1, hm2, h⟩
        · rintro ⟨m', h1, -, h3⟩
          rw [hm1] at h1; cases h1; exact h3
      · rename_i hm
        simp only [List.not_mem_nil, false_iff]
        rintro ⟨m, h1, h2, -⟩
        rw [truthyText_some.2 ⟨h1, h2⟩] at hm; cases hm
    rw [List.mem_append, List.mem_append, List.mem_append, hext, hmime, List.mem_singleton, List.mem_singleton]
    constructor
    · intro h
      refine ⟨n, hn1, hn2, ?_⟩
      rcases h with ((h | h) | h) | h
      · exact .inr (.inr (.inr h))
      · exact .inr (.inl h)
      · exact .inr (.inr (.inl h))
      · exact .inl h
    · rintro ⟨n', h1, -, h⟩
      rw [hn1] at h1; cases h1
      rcases h with h | h | h | h
      · exact .inr h
      · exact .inl (.inl (.inr h))
      · exact .inl (.inr h)
      · exact .inl (.inl (.inl h))

theorem lookup_append_or {α β : Type} [BEq α] (l m : List (α × β)) (k : α) : (l ++ m).lookup k = (l.lookup k).or (m.lookup k) := by
  induction l with
  | nil => rfl
  | cons e r ih =>
    rw [List.cons_append, List.lookup_cons, List.lookup_cons]
    cases k == e.1
    · exact ih
    · rfl

theorem lookup_const {toks : List FTok} {i : Nat} {t : FTok} :
    ((toks.map fun t => (t, i)).reverse).lookup t = if t ∈ toks then some i else none := by
  rw [← List.map_reverse]
  have : t ∈ toks ↔ t ∈ toks.reverse := List.mem_reverse.symm
  simp only [this]
  generalize toks.reverse = l
  induction l with
  | nil => rfl
  | cons a r ih =>
    rw [List.map_cons, List.lookup_cons]
    by_cases h : t = a
    · subst h; simp
    · have : (t == a) = false := by simpa using h
      simp only [this, ih, List.mem_cons, h, false_or]

/-- What the table holds: the last class that answers. -/
def RegisteredAs (st : Formats) : Prop :=
  ∀ t i, st.get t = some i ↔ i < st.classes.length ∧ Answers st.classes i t ∧ ∀ j, i < j → ¬ Answers st.classes j t

theorem answers_append {cs : List FormatCls} {c : FormatCls} {i : Nat} {t : FTok} (h : i < cs.length) :
    Answers (cs ++ [c]) i t ↔ Answers cs i t := by
  unfold Answers
  rw [List.getElem?_append_left h]

theorem answers_lt {cs : List FormatCls} {i : Nat} {t : FTok} (h : Answers cs i t) : i < cs.length := by
  obtain ⟨c, -, h, -⟩ := h
  exact (List.getElem?_eq_some_iff.1 h).1

theorem define_registered {st st' : Formats} {d : FormatDecl} (h : st.define d = .ok st') (hr : RegisteredAs st) : RegisteredAs st' := by
  unfold Formats.define at h
  simp only at h
  obtain ⟨toks, ht, h⟩ := except_bind_eq_ok.1 h
  cases h
  have hnew : ∀ t, t ∈ toks ↔ Answers (st.classes ++ [⟨d.name.getD (st.base d).name, d.mimetype.getD (st.base d).mimetype,
      d.extensions.getD (st.base d).extensions⟩]) st.classes.length t := by
    intro t
    rw [formatTokens_mem ht t]
    unfold Answers
    constructor
    · rintro ⟨n, h⟩
      exact ⟨_, n, List.getElem?_concat_length, h⟩
    · rintro ⟨c, n, hc, h⟩
      rw [List.getElem?_concat_length] at hc
      cases hc
      exact ⟨n, h⟩
  intro t i
  unfold Formats.get
  simp only
  rw [lookup_append_or, lookup_const]
  by_cases hmem : t ∈ toks
  · rw [if_pos hmem]
    simp only [Option.some_or, Option.some.injEq]
    constructor
    · rintro rfl
      refine ⟨by simp, (hnew t).1 hmem, ?_⟩
      intro j hj ha
      have := answers_lt ha
      simp at this; omega
    · rintro ⟨h1, h2, h3⟩
      simp only [List.length_append, List.length_singleton] at h1
      rcases Nat.lt_or_ge i st.classes.length with hlt | hge
      · exact absurd ((hnew t).1 hmem) (h3 _ hlt)
      · omega
  · rw [if_neg hmem, Option.none_or]
    have := hr t i
    unfold Formats.get at this
    rw [this]
    constructor
    · rintro ⟨h1, h2, h3⟩
      refine ⟨by simp; omega, (answers_append h1).2 h2, ?_⟩
      intro j hj ha
      have hlt := answers_lt ha
      simp only [List.length_append, List.length_singleton] at hlt
      rcases Nat.lt_or_ge j st.classes.length with hlt' | hge
      · exact h3 j hj ((answers_append hlt').1 ha)
      · have : j = st.classes.length := by omega
        subst this
        exact hmem ((hnew t).2 ha)
    · rintro ⟨h1, h2, h3⟩
      simp only [List.length_append, List.length_singleton] at h1
      rcases Nat.lt_or_ge i st.classes.length with hlt | hge
      · refine ⟨hlt, (answers_append hlt).1 h2, ?_⟩
        intro j hj ha
        exact h3 j hj ((answers_append (answers_lt ha)).2 ha)
      · have : i = st.classes.length := by omega
        subst this
        exact absurd ((hnew t).2 h2) hmem

theorem run_registered {ds : List FormatDecl} : ∀ {st st' : Formats}, st.run ds = .ok st' → RegisteredAs st → RegisteredAs st' := by
  induction ds with
  | nil => intro st st' h hr; cases h; exact hr
  | cons d r ih =>
    intro st st' h hr
    rw [Formats.run] at h
    obtain ⟨st1, h1, h⟩ := except_bind_eq_ok.1 h
    exact ih h (define_registered h1 hr)

/-- C46. After any class definitions, looking up a name, a mimetype, an extension or a class gives the last class that
answers to it. -/
theorem C46_lookup (ds : List FormatDecl) (st : Formats) (h : Formats.init.run ds = .ok st) (t : FTok) (i : Nat) :
    st.get t = some i ↔ Answers st.classes i t ∧ ∀ j, i < j → ¬ Answers st.classes j t := by
  have := run_registered h (by
    intro t i
    simp only [Formats.init, Formats.get, List.lookup_nil, reduceCtorEq, List.length_nil, Nat.not_lt_zero, false_and]) t i
  rw [this]
  exact ⟨fun h => ⟨h.2.1, h.2.2⟩, fun h => ⟨answers_lt h.1, h.1, h.2⟩⟩

/-- C46. A lookup fails exactly when no class answers. -/
theorem C46_missing (ds : List FormatDecl) (st : Formats) (h : Formats.init.run ds = .ok st) (t : FTok) :
    st.get t = none ↔ ∀ i, ¬ Answers st.classes i t := by
  constructor
  · intro hn
    have key : ∀ n i, i + n = st.classes.length → ¬ Answers st.classes i t := by
      intro n
      induction n using Nat.strongRecOn with
      | _ n ih =>
        intro i hi ha
        have : st.get t = some i := by
          rw [C46_lookup ds st h]
          refine ⟨ha, ?_⟩
          intro j hj hb
          have := answers_lt hb
          exact ih (st.classes.length - j) (by omega) j (by omega) hb
        rw [hn] at this; cases this
    intro i ha
    exact key (st.classes.length - i) i (by have := answers_lt ha; omega) ha
  · intro hn
    cases hg : st.get t with
    | none => rfl
    | some i => exact absurd ((C46_lookup ds st h t i).1 hg).1 (hn i)

/-- C46. A class takes each attribute from its body, otherwise from its base; `Format` gives none.  So a subclass
without a name of its own is registered in place of its base. -/
theorem C46_inherited (st st' : Formats) (d : FormatDecl) (h : st.define d = .ok st') :
    ∃ c, st'.classes = st.classes ++ [c] ∧
      (∀ n, d.name = some n → c.name = n) ∧ (∀ n, d.mimetype = some n → c.mimetype = n) ∧ (∀ n, d.extensions = some n → c.extensions = n) ∧
      (∀ b cb, d.base = some b → st.classes[b]? = some cb → (d.name = none → c.name = cb.name) ∧
        (d.mimetype = none → c.mimetype = cb.mimetype) ∧ (d.extensions = none → c.extensions = cb.extensions)) ∧
      (d.base = none → (d.name = none → c.name = none) ∧ (d.mimetype = none → c.mimetype = none) ∧ (d.extensions = none → c.extensions = none)) := by
  unfold Formats.define at h
  simp only at h
  obtain ⟨toks, ht, h⟩ := except_bind_eq_ok.1 h
  cases h
  refine ⟨_, rfl, ?_, ?_, ?_, ?_, ?_⟩
  · intro n hn; simp [hn]
  · intro n hn; simp [hn]
  · intro n hn; simp [hn]
  · intro b cb hb hc
    refine ⟨?_, ?_, ?_⟩ <;> intro hn <;> simp [hn, Formats.base, hb, hc]
  · intro hb
    refine ⟨?_, ?_, ?_⟩ <;> intro hn <;> simp [hn, Formats.base, hb]

theorem extOf_spec (e : Str) (rb : Str) (he : '.' ∉ e) :
    (∃ stem e', (rb.reverse ++ e) = stem ++ '.' :: e' ∧ '.' ∉ e' ∧ (∃ c ∈ stem, c ≠ '.') ∧ extOf e rb = '.' :: e') ∨
    ((∀ stem e', (rb.reverse ++ e) = stem ++ '.' :: e' → '.' ∉ e' → ∀ c ∈ stem, c = '.') ∧ extOf e rb = []) := by
  fun_induction extOf e rb with
  | case1 e =>
    refine .inr ⟨?_, rfl⟩
    intro stem e' h
    exact absurd (by rw [show e = stem ++ '.' :: e' by simpa using h]; simp) he
  | case2 e r hall =>
    refine .inr ⟨?_, rfl⟩
    intro stem e' h hd c hc
    rw [List.reverse_cons, List.append_assoc, List.cons_append, List.nil_append] at h
    have huniq : r.reverse = stem := by
      rcases List.append_eq_append_iff.1 h with ⟨x, hx1, hx2⟩ | ⟨x, hx1, hx2⟩
      · cases x with
        | nil => rw [List.append_nil] at hx1; exact hx1.symm
        | cons y x =>
          rw [List.cons_append] at hx2
          have := (List.cons.inj hx2).2
          exact absurd (by rw [this]; simp) he
      · cases x with
        | nil => rw [List.append_nil] at hx1; exact hx1
        | cons y x =>
          rw [List.cons_append] at hx2
          have := (List.cons.inj hx2).2
          exact absurd (by rw [this]; simp) hd
    rw [← huniq, List.mem_reverse] at hc
    have := List.all_eq_true.1 hall c hc
    simpa using this
  | case3 e r hall =>
    refine .inl ⟨r.reverse, e, by simp, he, ?_, rfl⟩
    rw [Bool.not_eq_true, List.all_eq_false] at hall
    obtain ⟨c, hc, hne⟩ := hall
    exact ⟨c, List.mem_reverse.2 hc, by simpa using hne⟩
  | case4 e c r hne ih =>
    have : (c :: r).reverse ++ e = r.reverse ++ c :: e := by simp
    rw [this]
    refine ih ?_
    rw [List.mem_cons, not_or]
    exact ⟨fun h => hne h.symm, he⟩

/-- C46. The extension of a path is found in its last component, behind the last dot, dots at the beginning apart. -/
theorem C46_extension (path : Str) : IsExtension path (splitExt path) := by
  let rb := path.reverse.takeWhile (· != '/')
  let rd := path.reverse.dropWhile (· != '/')
  have hsplit : path = rd.reverse ++ rb.reverse := by
    rw [← List.reverse_append, List.takeWhile_append_dropWhile, List.reverse_reverse]
  refine ⟨rd.reverse, rb.reverse, hsplit, ?_, ?_, ?_⟩
  · intro h
    have := takeWhile_all (p := (· != '/')) (s := path.reverse) _ (List.mem_reverse.1 h)
    simp at this
  · cases hrd : rd with
    | nil => exact .inl rfl
    | cons x r =>
      have := head_dropWhile (p := (· != '/')) (s := path.reverse) (by
        show rd.head? = some x
        rw [hrd]; rfl)
      right
      rw [List.getLast?_reverse, List.head?_cons]
      simpa using this
  · rcases extOf_spec [] rb (by simp) with ⟨stem, e, h1, h2, h3, h4⟩ | ⟨h1, h2⟩
    · rw [List.append_nil] at h1
      exact .inl ⟨stem, e, h1, h2, h3, h4⟩
    · rw [List.append_nil] at h1
      exact .inr ⟨h1, h2⟩

/-- C46. Reading or writing through `Format` without naming a format uses the last class that answers to the
lower-cased extension of the path, and is refused when there is none. -/
theorem C46_by_path (u : Chars) (ds : List FormatDecl) (st : Formats) (h : Formats.init.run ds = .ok st) (path : Str) :
    ∃ ext, IsExtension path ext ∧
      (∀ i, chooseFormat u st none none path = .ok i ↔
        Answers st.classes i (.text (lower u ext)) ∧ ∀ j, i < j → ¬ Answers st.classes j (.text (lower u ext))) ∧
      ((∀ i, ¬ Answers st.classes i (.text (lower u ext))) → chooseFormat u st none none path = .error .valueError) := by
  refine ⟨splitExt path, C46_extension path, ?_, ?_⟩
  · intro i
    rw [← C46_lookup ds st h]
    simp only [chooseFormat, chooseFormat.byClass, chooseFormat.byPath]
    split
    · rename_i j hj
      rw [hj]; simp
    · rename_i hj
      rw [hj]; simp
  · intro hn
    rw [← C46_missing ds st h] at hn
    simp only [chooseFormat, chooseFormat.byClass, chooseFormat.byPath, hn]

/-- C46. A format that is named wins over the path; an unknown one is refused. -/
theorem C46_by_name (u : Chars) (ds : List FormatDecl) (st : Formats) (h : Formats.init.run ds = .ok st) (cls : Option Nat)
    (t : FTok) (ht : t ≠ .text []) (path : Str) :
    (∀ i, chooseFormat u st cls (some t) path = .ok i ↔ Answers st.classes i t ∧ ∀ j, i < j → ¬ Answers st.classes j t) ∧
      ((∀ i, ¬ Answers st.classes i t) → chooseFormat u st cls (some t) path = .error .valueError) := by
  constructor
  · intro i
    rw [← C46_lookup ds st h]
    simp only [chooseFormat, if_neg ht]
    split
    · rename_i j hj
      rw [hj]; simp
    · rename_i hj
      rw [hj]; simp
  · intro hn
    rw [← C46_missing ds st h] at hn
    simp only [chooseFormat, if_neg ht, hn]

/-- C46. A named format class reads and writes in its own format, whatever the path. -/
theorem C46_by_class (u : Chars) (st : Formats) (i : Nat) (c : FormatCls) (n : Str) (hc : st.classes[i]? = some c)
    (hn : c.name = some n) (hne : n ≠ []) (path : Str) : chooseFormat u st (some i) none path = .ok i := by
  have : truthyText (st.classes[i]?.bind (·.name)) = some n := truthyText_some.2 ⟨by simp [hc, hn], hne⟩
  simp only [chooseFormat, chooseFormat.byClass, this, Option.isSome_some, if_true]

/-- The registry after importing the library. -/
def library : Formats := match Formats.init.run libraryFormats with
  | .ok st => st
  | .error _ => .init

theorem library_run : Formats.init.run libraryFormats = .ok library := rfl

/-- C46. After importing the library, url-encoded text cannot be reached through `Format.serialize` or
`Format.unserialize`: its methods take no schema. -/
theorem C46_urlencoded_unreachable :
    canCall library (.text c!"urlencoded") (·.1) = .error .typeError ∧ canCall library (.text c!"urlencoded") (·.2) = .error .typeError ∧
    ∀ t i, library.get t = some i → i ≠ 3 → canCall library t (·.1) = .ok i ∧ canCall library t (·.2) = .ok i := by
  refine ⟨rfl, rfl, ?_⟩
  intro t i h hi
  have hlt : i < 6 := answers_lt ((C46_lookup _ _ library_run t i).1 h).1
  unfold canCall
  rw [h]
  have : i = 0 ∨ i = 1 ∨ i = 2 ∨ i = 3 ∨ i = 4 ∨ i = 5 := by omega
  rcases this with rfl | rfl | rfl | rfl | rfl | rfl
  · exact ⟨rfl, rfl⟩
  · exact ⟨rfl, rfl⟩
  · exact ⟨rfl, rfl⟩
  · exact absurd rfl hi
  · exact ⟨rfl, rfl⟩
  · exact ⟨rfl, rfl⟩

example : chooseFormat Ex.chars library none none c!"/tmp/a.b/x.YML" = .ok 5 := by rfl
example : chooseFormat Ex.chars library none none c!"/tmp/a.json/x" = .error .valueError := by rfl
example : chooseFormat Ex.chars library none none c!".json" = .error .valueError := by rfl
example : chooseFormat Ex.chars library none (some (.text c!"text/plain")) c!"x.csv" = .ok 2 := by rfl
example : ((Formats.init.run (libraryFormats ++ [{ base := some 1 }])).map fun st => st.get (.text c!".json")).toOption = some (some 6) := by rfl

end Scheme
