import Verif.Lemmas.Leaf
import Verif.Lemmas.Re
import Verif.Lemmas.Str
import Verif.Model.Init
import Verif.Props.DateTime

/-! C21, C22, C23: texts, tokens and UUIDs. -/

namespace Scheme

/-! ### Text -/

theorem validateText_ok {f : Field} {mn mx : Option Nat} {pat : Str → Bool} {s : Str} {anc : List Str} {w : Val} :
    validateText f mn mx pat s anc = .ok w ↔
      (∀ m, mn = some m → m ≤ s.length) ∧ (∀ m, mx = some m → s.length ≤ m) ∧ pat s = true ∧ w = .str s := by
  have : validateText f mn mx pat s anc = .ok w ↔
      (∀ m, mn = some m → decide (s.length < m) = false) ∧ (∀ m, mx = some m → decide (s.length > m) = false) ∧
        (if pat s then .ok (.str s) else .error (mkErr f .validation anc (.str s) c!"pattern" []) : Except Exn Val) = .ok w :=
    bounds_split
  rw [this]
  have e : ((if pat s then .ok (.str s) else .error (mkErr f .validation anc (.str s) c!"pattern" []) : Except Exn Val) = .ok w) ↔
      pat s = true ∧ w = .str s := by
    cases pat s <;> simp [eq_comm]
  rw [e]
  simp only [decide_eq_false_iff_not, Nat.not_lt, gt_iff_lt]

theorem textForm_iff {u : Chars} {b : Bool} {s t : Str} : (if b then strip u s else s) = t ↔ TextForm u b s t := by
  unfold TextForm
  cases b
  · simp [eq_comm]
  · simp only [if_true]; exact stripBy_eq_iff

theorem validate_text {env : Env} {f : Field} {p mn mx : Option Nat} {b : Bool} {v w : Val} {anc : List Str} :
    validateLeaf env f (.text p mn mx b) v anc = .ok w ↔
      ∃ s t, v = .str s ∧ TextForm env.u b s t ∧ w = .str t ∧ (∀ m, mn = some m → m ≤ t.length) ∧
        (∀ m, mx = some m → t.length ≤ m) ∧ (∀ q, p = some q → env.pat q t = true) := by
  cases v with
  | str s =>
    simp only [validateLeaf, validateText_ok]
    have hp : ∀ t, patOk env p t = true ↔ (∀ q, p = some q → env.pat q t = true) := by
      intro t; cases p <;> simp [patOk]
    constructor
    · rintro ⟨h1, h2, h3, rfl⟩
      exact ⟨s, _, rfl, textForm_iff.1 rfl, rfl, h1, h2, (hp _).1 h3⟩
    · rintro ⟨_, t, he, h, rfl, h1, h2, h3⟩
      cases he
      rw [← textForm_iff] at h; subst h
      exact ⟨h1, h2, (hp _).2 h3, rfl⟩
  | _ => simp [validateLeaf]

/-- C21. In every phase and mode, a Text field accepts exactly the strings whose working form
(stripped unless `strip=False`) has a length within the inclusive bounds and matches the pattern, and
returns that form.  (`ConstOk`: the given text equals the constant, if one is set.) -/
theorem C21_iff (env : Env) (n : Nat) (c : Common) (p mn mx : Option Nat) (b : Bool) (hpre : c.pre = none)
    (v w : Val) (hv : v ≠ .none) (ph : Phase) (ser : Bool) (anc : List Str) (ha : anc ≠ []) :
    process env (n + 1) (.leaf c (.text p mn mx b)) v ph ser anc = .ok w ↔
      ConstOk c v ∧ ∃ s t, v = .str s ∧ TextForm env.u b s t ∧ w = .str t ∧
        (∀ m, mn = some m → m ≤ t.length) ∧ (∀ m, mx = some m → t.length ≤ m) ∧
        (∀ q, p = some q → env.pat q t = true) := by
  have hnp : NoPre c (.text p mn mx b) := NoPre.mk' hpre (by simp)
  have hnn : NotNull (.text p mn mx b) v := NotNull.mk' hv (by simp)
  have base : process env (n + 1) (.leaf c (.text p mn mx b)) v .inbound false anc = .ok w ↔
      ConstOk c v ∧ ∃ s t, v = .str s ∧ TextForm env.u b s t ∧ w = .str t ∧
        (∀ m, mn = some m → m ≤ t.length) ∧ (∀ m, mx = some m → t.length ≤ m) ∧
        (∀ q, p = some q → env.pat q t = true) := by
    rw [process_leaf_native hnp hnn ha, except_bind_eq_ok]
    simp only [checkConst_eq_ok, validate_text]
    constructor
    · rintro ⟨_, ⟨rfl, h⟩, h2⟩; exact ⟨h, h2⟩
    · rintro ⟨h1, h2⟩; exact ⟨_, ⟨rfl, h1⟩, h2⟩
  rw [← base]
  cases ser with
  | false => rw [process_leaf_native hnp hnn ha, process_leaf_native hnp hnn ha]
  | true =>
    cases ph with
    | inbound => rw [process_leaf_in' hnp hnn ha rfl hnn .inbound]
    | outbound =>
      rw [process_leaf_out' hnp hnn ha]
      cases process env (n + 1) (.leaf c (.text p mn mx b)) v .inbound false anc <;> rfl

example : process Ex.env 1 (.leaf {} (.text none (some 2) (some 3) true)) (.str c!" ab\t") .inbound true [c!"t"] =
    .ok (.str c!"ab") := rfl

/-- C21. With `strip` on, the result neither begins nor ends with whitespace. -/
theorem C21_no_outer_whitespace (env : Env) (n : Nat) (c : Common) (p mn mx : Option Nat) (hpre : c.pre = none)
    (v : Val) (t : Str) (ph : Phase) (ser : Bool) (anc : List Str) (ha : anc ≠ [])
    (h : process env (n + 1) (.leaf c (.text p mn mx true)) v ph ser anc = .ok (.str t)) :
    (∀ x, t.head? = some x → isSpace env.u x = false) ∧ (∀ x, t.getLast? = some x → isSpace env.u x = false) := by
  by_cases hv : v = .none
  · subst hv
    have hn : isNull (.leaf c (.text p mn mx true)) .none anc =
        if c.nonnull then .error (mkErr (.leaf c (.text p mn mx true)) .validation anc .none c!"nonnull" []) else .ok true := rfl
    have : process env (n + 1) (.leaf c (.text p mn mx true)) .none ph ser anc =
        processLeaf env c (.text p mn mx true) .none ph ser anc := rfl
    rw [this, processLeaf, ancOr, if_neg (by simpa using ha), hn] at h
    cases hc : c.nonnull <;> simp [hc] at h
  · obtain ⟨-, s, t', -, hf, he, -⟩ := (C21_iff env n c p mn mx true hpre v _ hv ph ser anc ha).1 h
    cases he
    obtain ⟨_, _, _, _, _, h1, h2⟩ : Stripped (isSpace env.u) s t := hf
    exact ⟨h1, h2⟩

/-- C21. Which characters count as whitespace: in ASCII the ten listed in `BlankChar`, beyond it those of the Unicode
database.  A leading one is dropped, any other character stays. -/
theorem C21_blank (env : Env) (n : Nat) (c : Common) (hpre : c.pre = none) (hconst : c.constant = .none) (x : Char)
    (ph : Phase) (ser : Bool) (anc : List Str) (ha : anc ≠ []) :
    (BlankChar env.u x →
      process env (n + 1) (.leaf c (.text none none none true)) (.str [x, '#']) ph ser anc = .ok (.str c!"#")) ∧
    (¬ BlankChar env.u x →
      process env (n + 1) (.leaf c (.text none none none true)) (.str [x, '#']) ph ser anc = .ok (.str [x, '#'])) := by
  have hh : isSpace env.u '#' = false := rfl
  refine ⟨fun h => ?_, fun h => ?_⟩
  · rw [C21_iff env n c none none none true hpre _ _ (by simp) ph ser anc ha]
    refine ⟨.inl hconst, _, c!"#", rfl, ⟨[x], [], rfl, ?_, by simp, ?_, ?_⟩, rfl, by simp, by simp, by simp⟩
    · intro y hy; rw [List.mem_singleton.1 hy]; exact (isSpace_iff _ _).2 h
    · intro y hy; cases hy; exact hh
    · intro y hy; cases hy; exact hh
  · rw [C21_iff env n c none none none true hpre _ _ (by simp) ph ser anc ha]
    refine ⟨.inl hconst, _, [x, '#'], rfl, ⟨[], [], rfl, by simp, by simp, ?_, ?_⟩, rfl, by simp, by simp, by simp⟩
    · intro y hy; cases hy; rw [Bool.eq_false_iff]; exact fun hx => h ((isSpace_iff _ _).1 hx)
    · intro y hy; cases hy; exact hh

example : BlankChar Ex.chars '\t' ∧ ¬ BlankChar Ex.chars 'a' :=
  ⟨.inl (by decide), by rintro (h | ⟨h, _⟩) <;> revert h <;> decide⟩

/-- C21. A text field built with `nonempty=True` and no contrary `min_length` only ever returns texts
that are not empty; with `strip` on they contain a non-whitespace character. -/
theorem C21_nonempty (env : Env) (n : Nat) (c : Common) (p : Option Nat) (mn mx : Option Int) (b : Bool) (f : Field)
    (hi : initText c p mn mx b true = .ok f) (hpre : c.pre = none) (hmn : mn ≠ some 0)
    (v w : Val) (ph : Phase) (ser : Bool) (anc : List Str) (ha : anc ≠ [])
    (h : process env (n + 1) f v ph ser anc = .ok w) :
    ∃ t, w = .str t ∧ t ≠ [] ∧ (b = true → ∃ x ∈ t, isSpace env.u x = false) := by
  obtain ⟨c', m, mx', hf, hm, hpre', hnn⟩ : ∃ c' m mx', f = .leaf c' (.text p (some m) mx' b) ∧ 1 ≤ m ∧ c'.pre = none ∧
      c'.nonnull = true := by
    unfold initText at hi
    simp only [if_true, Bool.true_and] at hi
    cases mn with
    | none =>
      simp only [Option.isNone_none, if_true, lengthArg] at hi
      split at hi
      · rename_i heq _; simp at heq; subst heq; cases hi
        exact ⟨_, 1, _, rfl, Nat.le_refl _, hpre, rfl⟩
      · simp at hi
    | some i =>
      simp only [Option.isNone_some, Bool.false_eq_true, if_false, lengthArg] at hi
      split at hi
      · rename_i heq _
        split at heq
        · simp at heq; subst heq; cases hi
          refine ⟨_, i.toNat, _, rfl, ?_, hpre, rfl⟩
          have : i ≠ 0 := fun h => hmn (by rw [h])
          omega
        · simp at heq
      · simp at hi
  subst hf
  by_cases hv : v = .none
  · subst hv
    have hn : isNull (.leaf c' (.text p (some m) mx' b)) .none anc =
        .error (mkErr (.leaf c' (.text p (some m) mx' b)) .validation anc .none c!"nonnull" []) := by
      simp [isNull, Field.common?, nullView, Val.isNone, hnn]
    have : process env (n + 1) (.leaf c' (.text p (some m) mx' b)) .none ph ser anc =
        processLeaf env c' (.text p (some m) mx' b) .none ph ser anc := rfl
    rw [this, processLeaf, ancOr, if_neg (by simpa using ha), hn] at h
    simp at h
  · obtain ⟨-, s, t, -, hf, he, hl, -⟩ := (C21_iff env n c' p (some m) mx' b hpre' v _ hv ph ser anc ha).1 h
    have hne : t ≠ [] := by
      have := hl m rfl
      rintro rfl; simp at this; omega
    refine ⟨t, he, hne, ?_⟩
    rintro rfl
    obtain ⟨_, _, _, _, _, h1, _⟩ : Stripped (isSpace env.u) s t := hf
    cases t with
    | nil => exact absurd rfl hne
    | cons x r => exact ⟨x, List.mem_cons_self .., h1 x rfl⟩

example : initText {} none none none true true =
    .ok (.leaf { required := true, nonnull := true } (.text none (some 1) none true)) := rfl

/-- C21. `nonempty=True` with an explicit `min_length=0` does accept the empty text. -/
theorem C21_nonempty_counterexample : ∃ f, initText {} none (some 0) none true true = .ok f ∧
    process Ex.env 1 f (.str c!"  ") .inbound false [c!"t"] = .ok (.str []) := ⟨_, rfl, rfl⟩

/-- C21. Anything but a text is an InvalidTypeError. -/
theorem C21_type_rejected (env : Env) (n : Nat) (c : Common) (p mn mx : Option Nat) (b : Bool) (hpre : c.pre = none)
    (hp : plainErrors (.leaf c (.text p mn mx b))) (v : Val) (hv : v ≠ .none) (hs : ∀ s, v ≠ .str s)
    (ph : Phase) (ser : Bool) (anc : List Str) (ha : anc ≠ []) :
    Raises (process env (n + 1) (.leaf c (.text p mn mx b)) v ph ser anc) .invalidType anc v c!"invalid" := by
  have hnp : NoPre c (.text p mn mx b) := NoPre.mk' hpre (by simp)
  have hnn : NotNull (.text p mn mx b) v := NotNull.mk' hv (by simp)
  have hinv : Raises (.error (mkErr (.leaf c (.text p mn mx b)) .invalidType anc v c!"invalid" []))
      .invalidType anc v c!"invalid" := Raises.of_mkErr hp ⟨_, rfl, rfl⟩
  have base : ∀ ph, Raises (process env (n + 1) (.leaf c (.text p mn mx b)) v ph false anc) .invalidType anc v c!"invalid" := by
    intro ph
    rw [process_leaf_native hnp hnn ha]
    unfold checkConst
    split
    · exact hinv
    · rw [except_bind_ok]
      cases v <;> first | exact hinv | exact absurd rfl (hs _)
  cases ser with
  | false => exact base ph
  | true =>
    cases ph with
    | inbound => rw [process_leaf_in' hnp hnn ha rfl hnn .inbound]; exact base _
    | outbound =>
      rw [process_leaf_out' hnp hnn ha]
      obtain ⟨t, m, h⟩ := base .inbound
      exact ⟨t, m, by rw [h]; rfl⟩

/-- C21. Failures of the length and pattern checks: a ValidationError about the working form, with token
'min_length', then 'max_length', then 'pattern'. -/
theorem C21_bounds (env : Env) (n : Nat) (c : Common) (p mn mx : Option Nat) (b : Bool) (hpre : c.pre = none)
    (hp : plainErrors (.leaf c (.text p mn mx b))) (s t : Str) (hc : ConstOk c (.str s)) (hf : TextForm env.u b s t)
    (ph : Phase) (anc : List Str) (ha : anc ≠ []) :
    (∀ m, mn = some m → t.length < m →
      Raises (process env (n + 1) (.leaf c (.text p mn mx b)) (.str s) ph false anc) .validation anc (.str t) c!"min_length") ∧
    ((∀ m, mn = some m → m ≤ t.length) → ∀ m, mx = some m → m < t.length →
      Raises (process env (n + 1) (.leaf c (.text p mn mx b)) (.str s) ph false anc) .validation anc (.str t) c!"max_length") ∧
    ((∀ m, mn = some m → m ≤ t.length) → (∀ m, mx = some m → t.length ≤ m) → ∀ q, p = some q → env.pat q t = false →
      Raises (process env (n + 1) (.leaf c (.text p mn mx b)) (.str s) ph false anc) .validation anc (.str t) c!"pattern") := by
  rw [process_leaf_native (NoPre.mk' hpre (by simp)) (NotNull.mk' (by simp) (by simp)) ha, checkConst_ok hc, except_bind_ok]
  rw [← textForm_iff] at hf
  simp only [validateLeaf, hf, validateText]
  have h1 : (∀ m, mn = some m → m ≤ t.length) → violates (fun m => decide (t.length < m)) mn = false := fun h =>
    (violates_false _ _).2 fun m hm => by have := h m hm; simpa using this
  have h2 : (∀ m, mx = some m → t.length ≤ m) → violates (fun m => decide (t.length > m)) mx = false := fun h =>
    (violates_false _ _).2 fun m hm => by have := h m hm; simpa using this
  refine ⟨?_, ?_, ?_⟩
  · rintro m rfl hm
    simp only [violates_some, hm, decide_true, if_true]
    exact Raises.of_mkErr hp ⟨_, rfl, rfl⟩
  · rintro hmn m rfl hm
    simp only [h1 hmn, violates_some, gt_iff_lt, hm, decide_true, if_true, Bool.false_eq_true, if_false]
    exact Raises.of_mkErr hp ⟨_, rfl, rfl⟩
  · rintro hmn hmx q rfl hq
    simp only [h1 hmn, h2 hmx, patOk, hq, Bool.false_eq_true, if_false]
    exact Raises.of_mkErr hp ⟨_, rfl, rfl⟩

example : Raises (process Ex.env 1 (.leaf {} (.text none (some 2) none true)) (.str c!" a ") .inbound false [c!"n"])
    .validation [c!"n"] (.str c!"a") c!"min_length" :=
  (C21_bounds _ _ _ _ _ _ _ rfl (by simp [plainErrors, Field.common?]) _ _ (.inl rfl) (textForm_iff.1 rfl) _ _ (by simp)).1 _ rfl (by decide)

/-! ### Token -/

theorem validate_token {env : Env} {f : Field} {seg : Option Int} {v w : Val} {anc : List Str} :
    validateLeaf env f (.token seg) v anc = .ok w ↔
      w = v ∧ ∃ s, v = .str s ∧ ∃ (t : Str) (k : Nat), (s = t ∨ s = t ++ ['\n']) ∧ IsToken env.u t k ∧ ∀ m, seg = some m → m = k := by
  cases v with
  | str s =>
    have hm : (tokenRe env.u).matchDollar s = true ↔
        ∃ t, (s = t ∨ s = t ++ ['\n']) ∧ IsToken env.u t (s.count ':' + 1) := by
      rw [Re.matchDollar_iff]
      simp only [tokenRe_iff]
      constructor
      · rintro (h | ⟨t, rfl, h⟩)
        · exact ⟨s, .inl rfl, h⟩
        · exact ⟨t, .inr rfl, by rw [List.count_append]; exact h⟩
      · rintro ⟨t, rfl | rfl, h⟩
        · exact .inl h
        · exact .inr ⟨t, rfl, by rw [List.count_append] at h; exact h⟩
    simp only [validateLeaf, Val.str.injEq, exists_eq_left']
    cases hmm : (tokenRe env.u).matchDollar s
    · simp only [Bool.false_eq_true, if_false, reduceCtorEq, false_iff]
      rintro ⟨-, t, k, ht, hk, -⟩
      have hk' : k = t.count ':' + 1 := by
        obtain ⟨l, h1, h2, h3, rfl⟩ := hk
        rw [count_joined l h1 h3]; exact h2.symm
      have : (tokenRe env.u).matchDollar s = true := by
        rw [hm]
        refine ⟨t, ht, ?_⟩
        rcases ht with rfl | rfl
        · rw [← hk']; exact hk
        · rw [List.count_append]; rw [hk'] at hk; exact hk
      rw [hmm] at this; simp at this
    · simp only [if_true]
      obtain ⟨t, ht, htok⟩ := hm.1 hmm
      have huniq : ∀ t k, (s = t ∨ s = t ++ ['\n']) → IsToken env.u t k → k = s.count ':' + 1 := by
        rintro t k ht ⟨l, h1, h2, h3, rfl⟩
        have := count_joined l h1 h3
        rcases ht with rfl | rfl
        · omega
        · rw [List.count_append]; have e : List.count ':' ['\n'] = 0 := rfl
          omega
      cases seg with
      | none =>
        simp only [Except.ok.injEq, reduceCtorEq, false_implies, implies_true, and_true]
        constructor
        · rintro rfl; exact ⟨rfl, t, _, ht, htok⟩
        · rintro ⟨rfl, _⟩; rfl
      | some m =>
        simp only [Option.some.injEq, forall_eq']
        split
        · rename_i hne
          simp only [reduceCtorEq, false_iff]
          rintro ⟨-, t', k, ht', hk, rfl⟩
          have := huniq t' k ht' hk
          omega
        · rename_i hne
          simp only [Except.ok.injEq]
          constructor
          · rintro rfl; exact ⟨rfl, t, _, ht, htok, by omega⟩
          · rintro ⟨rfl, _⟩; rfl
  | _ => simp [validateLeaf]

/-- C22. In every phase and mode, Token accepts exactly colon separated segments (word characters and
`-+.`, word characters at both ends), exactly `segments` many if that is set, and returns the text
unchanged — up to one trailing newline, which the `$` anchor lets through. -/
theorem C22_iff (env : Env) (n : Nat) (c : Common) (seg : Option Int) (hpre : c.pre = none)
    (v w : Val) (hv : v ≠ .none) (ph : Phase) (ser : Bool) (anc : List Str) (ha : anc ≠ []) :
    process env (n + 1) (.leaf c (.token seg)) v ph ser anc = .ok w ↔
      w = v ∧ ConstOk c v ∧ ∃ s, v = .str s ∧ ∃ (t : Str) (k : Nat), (s = t ∨ s = t ++ ['\n']) ∧ IsToken env.u t k ∧
        ∀ m, seg = some m → m = k := by
  have hnp : NoPre c (.token seg) := NoPre.mk' hpre (by simp)
  have hnn : NotNull (.token seg) v := NotNull.mk' hv (by simp)
  have base : process env (n + 1) (.leaf c (.token seg)) v .inbound false anc = .ok w ↔
      w = v ∧ ConstOk c v ∧ ∃ s, v = .str s ∧ ∃ (t : Str) (k : Nat), (s = t ∨ s = t ++ ['\n']) ∧ IsToken env.u t k ∧
        ∀ m, seg = some m → m = k := by
    rw [process_leaf_native hnp hnn ha, except_bind_eq_ok]
    simp only [checkConst_eq_ok, validate_token]
    constructor
    · rintro ⟨_, ⟨rfl, h⟩, h2, h3⟩; exact ⟨h2, h, h3⟩
    · rintro ⟨h1, h2, h3⟩; exact ⟨_, ⟨rfl, h2⟩, h1, h3⟩
  rw [← base]
  cases ser with
  | false => rw [process_leaf_native hnp hnn ha, process_leaf_native hnp hnn ha]
  | true =>
    cases ph with
    | inbound => rw [process_leaf_in' hnp hnn ha rfl hnn .inbound]
    | outbound =>
      rw [process_leaf_out' hnp hnn ha]
      cases process env (n + 1) (.leaf c (.token seg)) v .inbound false anc <;> rfl

example : process Ex.env 1 (.leaf {} (.token (some 2))) (.str c!"a-b:c") .inbound false [c!"t"] = .ok (.str c!"a-b:c") := rfl
example : IsToken Ex.chars c!"a-b:c" 2 :=
  ⟨[c!"a-b", c!"c"], by simp, rfl, by simp [IsSegment, ← isWord_iff]; decide, rfl⟩

/-- C22. The deviation: a token followed by a newline is accepted, newline included, although it is not a
token. -/
theorem C22_newline_counterexample :
    process Ex.env 1 (.leaf {} (.token none)) (.str c!"a\n") .inbound false [c!"t"] = .ok (.str c!"a\n") ∧
      ∀ k, ¬ IsToken Ex.chars c!"a\n" k := by
  refine ⟨rfl, ?_⟩
  intro k h
  have : Matches (tokenRe Ex.chars) c!"a\n" := by
    obtain ⟨l, h1, h2, h3, h4⟩ := h
    rw [tokenRe_iff]
    rw [h4]
    exact ⟨l, h1, (count_joined l h1 h3).symm, h3, rfl⟩
  rw [← Re.accepts_iff] at this
  exact absurd this (by decide)

/-- C22. Text that is not a token (even up to a trailing newline) is an InvalidTypeError; a token with
the wrong number of segments a ValidationError; both have token 'invalid'. -/
theorem C22_rejected (env : Env) (n : Nat) (c : Common) (seg : Option Int) (hpre : c.pre = none)
    (hp : plainErrors (.leaf c (.token seg))) (v : Val) (hv : v ≠ .none) (hc : ConstOk c v)
    (ph : Phase) (anc : List Str) (ha : anc ≠ []) :
    ((∀ s, v = .str s → ∀ t k, (s = t ∨ s = t ++ ['\n']) → ¬ IsToken env.u t k) →
      Raises (process env (n + 1) (.leaf c (.token seg)) v ph false anc) .invalidType anc v c!"invalid") ∧
    (∀ s k m, v = .str s → IsToken env.u s k → seg = some m → m ≠ k →
      Raises (process env (n + 1) (.leaf c (.token seg)) v ph false anc) .validation anc v c!"invalid") := by
  rw [process_leaf_native (NoPre.mk' hpre (by simp)) (NotNull.mk' hv (by simp)) ha, checkConst_ok hc, except_bind_ok]
  constructor
  · intro h
    cases v with
    | none => exact absurd rfl hv
    | str s =>
      have hm : (tokenRe env.u).matchDollar s = false := by
        cases hmm : (tokenRe env.u).matchDollar s
        · rfl
        · have := (validate_token (env := env) (f := .leaf c (.token none)) (seg := none) (v := .str s) (w := .str s)
            (anc := anc)).1 (by simp [validateLeaf, hmm])
          obtain ⟨-, _, he, t, k, ht, hk, -⟩ := this
          cases he
          exact absurd hk (h s rfl t k ht)
      simp only [validateLeaf, hm, Bool.false_eq_true, if_false]
      exact Raises.of_mkErr hp ⟨_, rfl, rfl⟩
    | _ => exact Raises.of_mkErr hp ⟨_, rfl, rfl⟩
  · rintro s k m rfl hk rfl hne
    have hk' : s.count ':' + 1 = k := by
      obtain ⟨l, h1, h2, h3, rfl⟩ := hk; rw [count_joined l h1 h3]; exact h2
    have hm : (tokenRe env.u).matchDollar s = true := by
      rw [Re.matchDollar_iff, tokenRe_iff]; left; rw [hk']; exact hk
    simp only [validateLeaf, hm, if_true]
    rw [if_pos (by omega)]
    exact Raises.of_mkErr hp ⟨_, rfl, rfl⟩

/-! ### UUID -/

theorem validate_uuid {env : Env} {f : Field} {v w : Val} {anc : List Str} :
    validateLeaf env f .uuid v anc = .ok w ↔
      w = v ∧ ∃ s t, v = .str s ∧ (s = t ∨ s = t ++ ['\n']) ∧ IsUuid t := by
  cases v with
  | str s =>
    have hm : uuidRe.matchDollar s = true ↔ ∃ t, (s = t ∨ s = t ++ ['\n']) ∧ IsUuid t := by
      rw [Re.matchDollar_iff]
      simp only [uuidRe_iff]
      constructor
      · rintro (h | ⟨t, rfl, h⟩)
        · exact ⟨s, .inl rfl, h⟩
        · exact ⟨t, .inr rfl, h⟩
      · rintro ⟨t, rfl | rfl, h⟩
        · exact .inl h
        · exact .inr ⟨t, rfl, h⟩
    simp only [validateLeaf, Val.str.injEq, exists_and_left, exists_eq_left']
    rw [← hm]
    cases uuidRe.matchDollar s <;> simp [eq_comm]
  | _ => simp [validateLeaf]

/-- C23. In every phase and mode, UUID accepts exactly 8-4-4-4-12 lower-case hexadecimal text, returned
unchanged — up to one trailing newline, which the `$` anchor lets through. -/
theorem C23_iff (env : Env) (n : Nat) (c : Common) (hpre : c.pre = none)
    (v w : Val) (hv : v ≠ .none) (ph : Phase) (ser : Bool) (anc : List Str) (ha : anc ≠ []) :
    process env (n + 1) (.leaf c .uuid) v ph ser anc = .ok w ↔
      w = v ∧ ConstOk c v ∧ ∃ s t, v = .str s ∧ (s = t ∨ s = t ++ ['\n']) ∧ IsUuid t := by
  have hnp : NoPre c .uuid := NoPre.mk' hpre (by simp)
  have hnn : NotNull .uuid v := NotNull.mk' hv (by simp)
  have base : process env (n + 1) (.leaf c .uuid) v .inbound false anc = .ok w ↔
      w = v ∧ ConstOk c v ∧ ∃ s t, v = .str s ∧ (s = t ∨ s = t ++ ['\n']) ∧ IsUuid t := by
    rw [process_leaf_native hnp hnn ha, except_bind_eq_ok]
    simp only [checkConst_eq_ok, validate_uuid]
    constructor
    · rintro ⟨_, ⟨rfl, h⟩, h2, h3⟩; exact ⟨h2, h, h3⟩
    · rintro ⟨h1, h2, h3⟩; exact ⟨_, ⟨rfl, h2⟩, h1, h3⟩
  rw [← base]
  cases ser with
  | false => rw [process_leaf_native hnp hnn ha, process_leaf_native hnp hnn ha]
  | true =>
    cases ph with
    | inbound => rw [process_leaf_in' hnp hnn ha rfl hnn .inbound]
    | outbound =>
      rw [process_leaf_out' hnp hnn ha]
      cases process env (n + 1) (.leaf c .uuid) v .inbound false anc <;> rfl

example : process Ex.env 1 (.leaf {} .uuid) (.str c!"01234567-89ab-cdef-0123-456789abcdef") .inbound false [c!"t"] =
    .ok (.str c!"01234567-89ab-cdef-0123-456789abcdef") := rfl

/-- C23. Everything else is an InvalidTypeError with token 'invalid'. -/
theorem C23_rejected (env : Env) (n : Nat) (c : Common) (hpre : c.pre = none)
    (hp : plainErrors (.leaf c .uuid)) (v : Val) (hv : v ≠ .none)
    (h : ∀ s t, v = .str s → (s = t ∨ s = t ++ ['\n']) → ¬ IsUuid t)
    (ph : Phase) (anc : List Str) (ha : anc ≠ []) :
    Raises (process env (n + 1) (.leaf c .uuid) v ph false anc) .invalidType anc v c!"invalid" := by
  rw [process_leaf_native (NoPre.mk' hpre (by simp)) (NotNull.mk' hv (by simp)) ha]
  have hinv : Raises (.error (mkErr (.leaf c .uuid) .invalidType anc v c!"invalid" []))
      .invalidType anc v c!"invalid" := Raises.of_mkErr hp ⟨_, rfl, rfl⟩
  unfold checkConst
  split
  · exact hinv
  · rw [except_bind_ok]
    cases v with
    | str s =>
      cases hmm : uuidRe.matchDollar s
      · simp only [validateLeaf, hmm, Bool.false_eq_true, if_false]; exact hinv
      · have := (validate_uuid (env := env) (f := .leaf c .uuid) (v := .str s) (w := .str s)
            (anc := anc)).1 (by simp [validateLeaf, hmm])
        obtain ⟨-, _, t, he, ht, hk⟩ := this
        cases he
        exact absurd hk (h s t rfl ht)
    | _ => exact hinv

/-- C23. The deviation: a UUID followed by a newline is accepted, newline included. -/
theorem C23_newline_counterexample :
    process Ex.env 1 (.leaf {} .uuid) (.str c!"01234567-89ab-cdef-0123-456789abcdef\n") .inbound false [c!"t"] =
      .ok (.str c!"01234567-89ab-cdef-0123-456789abcdef\n") ∧
      ¬ IsUuid c!"01234567-89ab-cdef-0123-456789abcdef\n" := by
  refine ⟨rfl, ?_⟩
  rw [← uuidRe_iff, ← Re.accepts_iff]
  decide

end Scheme
