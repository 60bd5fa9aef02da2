import Verif.Lemmas.StructuredText
import Verif.Lemmas.Blame
import Verif.Spec.Examples

/-! C39, C40: the structured text format. -/

namespace Scheme
open ST

/-! ### Escaping -/

theorem stUnescape_escape (s : Str) : stUnescapeAux false (stEscape s) = s ∧ stUnescapeAux true (stEscape s) = '\\' :: s := by
  induction s with
  | nil => exact ⟨rfl, rfl⟩
  | cons c r ih =>
    by_cases hb : isBracket c = true
    · simp only [stEscape, hb, if_true, stUnescapeAux, ih.1]
      exact ⟨trivial, by simp [isBracket]⟩
    · by_cases hc : c = '\\'
      · subst hc
        simp only [stEscape, hb, Bool.false_eq_true, if_false, stUnescapeAux, if_true, ih.2]
        exact ⟨trivial, trivial⟩
      · simp only [stEscape, hb, Bool.false_eq_true, if_false, stUnescapeAux, hc, ih.1]
        exact ⟨trivial, trivial⟩

theorem isBracket_iff {c : Char} : isBracket c = true ↔ c = '{' ∨ c = '}' ∨ c = '[' ∨ c = ']' := by
  simp [isBracket, or_assoc]

theorem bracketsEscaped (s : Str) : BracketsEscaped (stEscape s) := by
  suffices hs : ∀ s a c b, stEscape s = a ++ c :: b → isBracket c = true → ∃ a', a = a' ++ ['\\'] by
    intro a c b h hc
    exact hs s a c b h (isBracket_iff.2 hc)
  intro s
  induction s with
  | nil => intro a c b h; simp [stEscape] at h
  | cons x r ih =>
    intro a c b h hc
    rw [stEscape] at h
    split at h
    · cases a with
      | nil => simp at h; rw [← h.1] at hc; cases hc
      | cons y a =>
        simp only [List.cons_append, List.cons.injEq] at h
        cases a with
        | nil => exact ⟨[], by rw [← h.1]; rfl⟩
        | cons z a =>
          simp only [List.cons_append, List.cons.injEq] at h
          obtain ⟨a', rfl⟩ := ih a c b h.2.2 hc
          exact ⟨y :: z :: a', rfl⟩
    · rename_i hx
      cases a with
      | nil => simp at h; rw [← h.1] at hc; exact absurd hc hx
      | cons y a =>
        simp only [List.cons_append, List.cons.injEq] at h
        obtain ⟨a', rfl⟩ := ih a c b h.2 hc
        exact ⟨y :: a', rfl⟩

theorem stEscape_id {s : Str} (h : ∀ c ∈ s, isBracket c = false) : stEscape s = s := by
  induction s with
  | nil => rfl
  | cons c r ih =>
    rw [stEscape, h c (List.mem_cons_self ..), ih fun x hx => h x (List.mem_cons_of_mem _ hx)]; rfl

theorem mem_stEscape {s : Str} {c : Char} (h : c ∈ stEscape s) : c ∈ s ∨ c = '\\' := by
  induction s with
  | nil => cases h
  | cons x r ih =>
    rw [stEscape] at h
    split at h
    · rcases List.mem_cons.1 h with rfl | h
      · exact .inr rfl
      · rcases List.mem_cons.1 h with rfl | h
        · exact .inl (List.mem_cons_self ..)
        · exact (ih h).imp (List.mem_cons_of_mem _) id
    · rcases List.mem_cons.1 h with rfl | h
      · exact .inl (List.mem_cons_self ..)
      · exact (ih h).imp (List.mem_cons_of_mem _) id

theorem stEscape_nil {s : Str} (h : stEscape s = []) : s = [] := by
  cases s with
  | nil => rfl
  | cons c r => rw [stEscape] at h; split at h <;> cases h

theorem lower_backslash {u : Chars} {s : Str} (h : '\\' ∈ s) : '\\' ∈ lower u s :=
  List.mem_flatMap.2 ⟨'\\', h, by simp [lowerChar, isAscii, asciiUpper]⟩

theorem backslash_stEscape {s : Str} {c : Char} (hc : c ∈ s) (hb : isBracket c = true) : '\\' ∈ stEscape s := by
  induction s with
  | nil => cases hc
  | cons x r ih =>
    rw [stEscape]
    rcases List.mem_cons.1 hc with rfl | hc
    · simp [hb]
    · split
      · exact List.mem_cons_self ..
      · exact List.mem_cons_of_mem _ (ih hc)

theorem reserved_stEscape {u : Chars} {s : Str} : Reserved u (stEscape s) ↔ Reserved u s := by
  by_cases h : ∀ c ∈ s, isBracket c = false
  · rw [stEscape_id h]
  · have : ∃ c ∈ s, isBracket c = true := by
      refine Classical.byContradiction fun hn => h fun c hc => ?_
      cases hb : isBracket c with
      | false => rfl
      | true => exact absurd ⟨c, hc, hb⟩ hn
    obtain ⟨c, hc, hb⟩ := this
    have h1 := lower_backslash (u := u) (backslash_stEscape hc hb)
    have h2 : c ∈ lower u s := List.mem_flatMap.2 ⟨c, hc, by
      rcases isBracket_iff.1 hb with rfl | rfl | rfl | rfl <;> simp [lowerChar, isAscii, asciiUpper]⟩
    constructor
    · rintro (h | h | h) <;> rw [h] at h1 <;> exact absurd h1 (by decide)
    · rintro (h | h | h) <;> rw [h] at h2 <;> rcases isBracket_iff.1 hb with rfl | rfl | rfl | rfl <;>
        exact absurd h2 (by decide)

theorem stSimple_text {env : Env} {s : Str} (h : ¬ Reserved env.u s) : stSimple env false s = .str (stUnescape s) := by
  unfold stSimple
  simp only [Reserved, not_or] at h
  simp [h.1, h.2.1, h.2.2]

/-- C39. The text written for a text has a backslash before every bracket. -/
theorem C39_escaped (env : Env) (s : Str) : ∃ t, stSerialize env (.str s) = some t ∧ BracketsEscaped t :=
  ⟨_, rfl, bracketsEscaped s⟩

theorem stUnserialize_escape (env : Env) (numbers : Bool) {s : Str} (h : s ≠ []) :
    stUnserialize env numbers (.str (stEscape s)) = .ok (stSimple env numbers (stEscape s)) := by
  cases hs : stEscape s with
  | nil => exact absurd (stEscape_nil hs) h
  | cons c r =>
    have : ¬ (c = '{' ∨ c = '[') := by
      intro hc
      obtain ⟨a', ha⟩ := bracketsEscaped s [] c r (by simp [hs]) (by rcases hc with rfl | rfl <;> simp)
      simp at ha
    rw [stUnserialize, if_neg this]

/-- C39. A text is read back iff it is not empty and does not spell `true`, `false` or `null`. -/
theorem C39_roundtrip (env : Env) (s : Str) :
    (∃ t, stSerialize env (.str s) = some t ∧ stUnserialize env false (.str t) = .ok (.str s)) ↔
      s ≠ [] ∧ ¬ Reserved env.u s := by
  constructor
  · rintro ⟨t, ht, h⟩
    cases ht
    have hne : s ≠ [] := by rintro rfl; cases h
    refine ⟨hne, fun hr => ?_⟩
    rw [stUnserialize_escape env false hne] at h
    have hr := reserved_stEscape.2 hr
    unfold stSimple at h
    rcases hr with hr | hr | hr <;> rw [hr] at h <;> simp at h
  · rintro ⟨hne, hr⟩
    refine ⟨_, rfl, ?_⟩
    rw [stUnserialize_escape env false hne, stSimple_text (mt reserved_stEscape.1 hr)]
    rw [stUnescape, (stUnescape_escape s).1]

/-- C39. The reserved words are read as the values they spell. -/
theorem C39_reserved (env : Env) (s : Str) (numbers : Bool) (h : s ≠ []) :
    (lower env.u s = c!"true" → stUnserialize env numbers (.str (stEscape s)) = .ok (.bool true)) ∧
    (lower env.u s = c!"false" → stUnserialize env numbers (.str (stEscape s)) = .ok (.bool false)) ∧
    (lower env.u s = c!"null" → stUnserialize env numbers (.str (stEscape s)) = .ok .none) := by
  have hid : ∀ w, w ∈ [c!"true", c!"false", c!"null"] → lower env.u s = w → stEscape s = s := by
    intro w hw hl
    apply stEscape_id
    intro c hc
    cases hb : isBracket c with
    | false => rfl
    | true =>
      have h2 : c ∈ lower env.u s := List.mem_flatMap.2 ⟨c, hc, by
        rcases isBracket_iff.1 hb with rfl | rfl | rfl | rfl <;> simp [lowerChar, isAscii, asciiUpper]⟩
      rw [hl] at h2
      simp only [List.mem_cons, List.not_mem_nil, or_false] at hw
      rcases hw with rfl | rfl | rfl <;> rcases isBracket_iff.1 hb with rfl | rfl | rfl | rfl <;> exact absurd h2 (by decide)
  refine ⟨fun hl => ?_, fun hl => ?_, fun hl => ?_⟩ <;>
    rw [stUnserialize_escape env numbers h, hid _ (by simp) hl] <;> simp [stSimple, hl]

/-- C39. The empty text is written as the empty text, which cannot be read. -/
theorem C39_empty (env : Env) (numbers : Bool) :
    stSerialize env (.str []) = some [] ∧ stUnserialize env numbers (.str []) = .error (.py .indexError) := ⟨rfl, rfl⟩

theorem mem_intStr {i : Int} {c : Char} (h : c ∈ intStr i) : c = '-' ∨ ∃ d, d < 10 ∧ c = digitChar d := by
  have hn : ∀ n, c ∈ natStr n → ∃ d, d < 10 ∧ c = digitChar d := by
    intro n hc
    obtain ⟨ds, -, hds, hs, -⟩ := natStr_digits n
    rw [hs] at hc
    obtain ⟨d, hd, rfl⟩ := List.mem_map.1 hc
    exact ⟨d, hds d hd, rfl⟩
  cases i with
  | ofNat n => exact .inr (hn n h)
  | negSucc n =>
    rcases List.mem_cons.1 h with rfl | h
    · exact .inl rfl
    · exact .inr (hn _ h)

theorem not_mem_intStr {i : Int} {c : Char} (h : c ≠ '-') (h' : c.toNat < 48 ∨ 57 < c.toNat) : c ∉ intStr i := by
  intro hc
  rcases mem_intStr hc with rfl | ⟨d, hd, rfl⟩
  · exact h rfl
  · exact digitChar_ne hd h' rfl

theorem intStr_ne_nil (i : Int) : intStr i ≠ [] := by
  cases i with
  | ofNat n => exact natStr_ne_nil n
  | negSucc n => simp [intStr]

theorem parseInt_intStr (u : Chars) (i : Int) : parseInt u (intStr i) = some i := by
  have hn : ∀ n, ∃ d r, d < 10 ∧ natStr n = digitChar d :: r ∧ strip u (natStr n) = natStr n ∧
      strip u ('-' :: natStr n) = '-' :: natStr n := by
    intro n
    obtain ⟨ds, hne, h, hs, -⟩ := natStr_digits n
    have hl : ∀ c, (natStr n).getLast? = some c → isSpace u c = false := by
      intro c hc
      have := List.mem_of_getLast? hc
      rw [hs] at this
      obtain ⟨d, hd, rfl⟩ := List.mem_map.1 this
      exact isSpace_digitChar u d (h d hd)
    cases ds with
    | nil => exact absurd rfl hne
    | cons d r =>
      refine ⟨d, r.map digitChar, h d (by simp), by rw [hs]; rfl, ?_, ?_⟩
      · apply stripBy_of_ends
        · intro c hc; rw [hs] at hc; cases hc; exact isSpace_digitChar u d (h d (by simp))
        · exact hl
      · apply stripBy_of_ends
        · intro c hc; cases hc; rfl
        · intro c hc
          rw [List.getLast?_cons, Option.some.injEq] at hc
          cases hg : (natStr n).getLast? with
          | none => rw [List.getLast?_eq_none_iff] at hg; exact absurd hg (natStr_ne_nil n)
          | some x => rw [hg] at hc; simp at hc; subst hc; exact hl x hg
  cases i with
  | ofNat n =>
    obtain ⟨d, r, hd, he, hs, -⟩ := hn n
    have hp := parseDigits_natStr u n
    unfold parseInt
    rw [intStr, hs]
    rw [he] at hp ⊢
    split
    · rename_i heq; exact absurd (List.cons.inj heq).1 (digitChar_ne hd (by decide))
    · rename_i heq; exact absurd (List.cons.inj heq).1 (digitChar_ne hd (by decide))
    · rw [hp]; rfl
  | negSucc n =>
    obtain ⟨d, r, hd, he, -, hs⟩ := hn (n + 1)
    unfold parseInt
    rw [intStr, hs]
    simp only [parseDigits_natStr, Option.map_some]
    rfl

theorem not_reserved_intStr (u : Chars) (i : Int) : ¬ Reserved u (intStr i) := by
  have hd : ∃ d, d < 10 ∧ digitChar d ∈ intStr i := by
    have hn : ∀ n, ∃ d, d < 10 ∧ digitChar d ∈ natStr n := by
      intro n
      obtain ⟨ds, hne, h, hs, -⟩ := natStr_digits n
      cases ds with
      | nil => exact absurd rfl hne
      | cons d r => exact ⟨d, h d (by simp), by rw [hs]; simp⟩
    cases i with
    | ofNat n => exact hn n
    | negSucc n => obtain ⟨d, h1, h2⟩ := hn (n + 1); exact ⟨d, h1, List.mem_cons_of_mem _ h2⟩
  obtain ⟨d, hd, hm⟩ := hd
  have hl : lowerChar u (digitChar d) = [digitChar d] := by
    have := digitChar_toNat d hd
    have h1 : isAscii (digitChar d) = true := by simp [isAscii, this]; omega
    have h2 : asciiUpper (digitChar d) = false := by simp [asciiUpper, this]; omega
    simp [lowerChar, h1, h2]
  have h2 : digitChar d ∈ lower u (intStr i) := List.mem_flatMap.2 ⟨_, hm, by rw [hl]; simp⟩
  have hall : ∀ c ∈ c!"truefalsn", digitChar d ≠ c := by
    intro c hc
    apply digitChar_ne hd
    revert c; decide
  rintro (h | h | h) <;> rw [h] at h2 <;> simp only [List.mem_cons, List.not_mem_nil, or_false] at h2 <;>
    rcases h2 with h2 | h2 | h2 | h2 <;> first | exact hall _ (by decide) h2 | skip
  all_goals (rcases h2 with h2 | h2; exact hall _ (by decide) h2; exact hall _ (by decide) h2)

theorem stSimple_int (env : Env) (i : Int) : stSimple env true (intStr i) = .int i := by
  have hr := not_reserved_intStr env.u i
  simp only [Reserved, not_or] at hr
  have hd : (intStr i).contains '.' = false := by
    simpa using not_mem_intStr (i := i) (c := '.') (by decide) (by decide)
  unfold stSimple
  simp only [hr.1, hr.2.1, hr.2.2, if_false, Bool.not_true, Bool.false_eq_true, hd, parseInt_intStr]

/-- C39. The other scalars: booleans and null are read back, numbers with `parse_numbers` only; without it they come
back as texts. -/
theorem C39_scalars (env : Env) (numbers : Bool) (b : Bool) (i : Int) :
    (∃ t, stSerialize env (.bool b) = some t ∧ stUnserialize env numbers (.str t) = .ok (.bool b)) ∧
    (∃ t, stSerialize env .none = some t ∧ stUnserialize env numbers (.str t) = .ok .none) ∧
    (∃ t, stSerialize env (.int i) = some t ∧
      stUnserialize env numbers (.str t) = .ok (if numbers then .int i else .str (intStr i))) := by
  refine ⟨⟨_, rfl, by cases b <;> rfl⟩, ⟨_, rfl, rfl⟩, ⟨_, rfl, ?_⟩⟩
  have he : stEscape (intStr i) = intStr i := by
    apply stEscape_id
    intro c hc
    cases hb : isBracket c with
    | false => rfl
    | true =>
      refine absurd hc (not_mem_intStr ?_ ?_) <;> rcases isBracket_iff.1 hb with rfl | rfl | rfl | rfl <;> decide
  have := stUnserialize_escape env numbers (intStr_ne_nil i)
  rw [he] at this
  rw [this]
  cases numbers with
  | true => rw [stSimple_int]; rfl
  | false =>
    have h2 := (stUnescape_escape (intStr i)).1
    rw [he] at h2
    rw [stSimple_text (not_reserved_intStr env.u i), stUnescape, h2]; rfl

/-! ### Documents for values -/

mutual
def docOf (str : Val → Str) : Val → Doc
  | .list l => .node false (docsOf str l)
  | .dict d => .node true (sortEntries (docsOfD str d))
  | .none => .leaf c!"null" .none
  | .bool true => .leaf c!"true" (.bool true)
  | .bool false => .leaf c!"false" (.bool false)
  | .str s => .leaf (stEscape s) (.str s)
  | .int i => .leaf (intStr i) (.int i)
  | v => .leaf (str v) v
def docsOf (str : Val → Str) : List Val → List (Str × Doc)
  | [] => []
  | v :: r => ([], docOf str v) :: docsOf str r
def docsOfD (str : Val → Str) : List (Val × Val) → List (Str × Doc)
  | [] => []
  | (.str k, v) :: r => (k, docOf str v) :: docsOfD str r
  | _ :: r => docsOfD str r
end

/-- The entries with text keys. -/
def keyed : List (Val × Val) → List (Str × Val)
  | [] => []
  | (.str k, v) :: r => (k, v) :: keyed r
  | _ :: r => keyed r

theorem docsOf_eq (str : Val → Str) (l : List Val) : docsOf str l = l.map fun v => ([], docOf str v) := by
  induction l with
  | nil => rfl
  | cons v r ih => rw [docsOf, ih]; rfl

theorem docsOfD_eq (str : Val → Str) (d : List (Val × Val)) : docsOfD str d = (keyed d).map fun p => (p.1, docOf str p.2) := by
  induction d with
  | nil => rfl
  | cons e r ih =>
    obtain ⟨k, v⟩ := e
    cases k with
    | str s => rw [docsOfD, ih]; rfl
    | _ => exact ih

theorem sortInsert_map {α β : Type} (g : α → β) (e : Str × α) (l : List (Str × α)) :
    sortInsert (e.1, g e.2) (l.map fun p => (p.1, g p.2)) = (sortInsert e l).map fun p => (p.1, g p.2) := by
  induction l with
  | nil => rfl
  | cons x r ih =>
    simp only [List.map_cons, sortInsert]
    split
    · rfl
    · rw [ih]; rfl

theorem sortEntries_map {α β : Type} (g : α → β) (l : List (Str × α)) :
    sortEntries (l.map fun p => (p.1, g p.2)) = (sortEntries l).map fun p => (p.1, g p.2) := by
  induction l with
  | nil => rfl
  | cons e r ih => rw [List.map_cons, sortEntries, ih, sortInsert_map]; rfl

theorem sortInsert_perm {α : Type} (e : Str × α) (l : List (Str × α)) : (sortInsert e l).Perm (e :: l) := by
  induction l with
  | nil => exact .refl _
  | cons x r ih =>
    rw [sortInsert]
    split
    · exact .refl _
    · exact (ih.cons x).trans (.swap e x r)

theorem sortEntries_perm {α : Type} (l : List (Str × α)) : (sortEntries l).Perm l := by
  induction l with
  | nil => exact .refl _
  | cons e r ih => exact (sortInsert_perm e _).trans (ih.cons e)

theorem keyed_eq {d : List (Val × Val)} (h : ∀ e ∈ d, ∃ k, e.1 = .str k) :
    (keyed d).map (fun p => (Val.str p.1, p.2)) = d := by
  induction d with
  | nil => rfl
  | cons e r ih =>
    obtain ⟨k, v⟩ := e
    obtain ⟨s, rfl⟩ := h _ (List.mem_cons_self ..)
    rw [keyed, List.map_cons, ih fun e he => h e (List.mem_cons_of_mem _ he)]

theorem mem_keyed {d : List (Val × Val)} {k : Str} {v : Val} : (k, v) ∈ keyed d ↔ (.str k, v) ∈ d := by
  induction d with
  | nil => simp [keyed]
  | cons e r ih =>
    obtain ⟨k', v'⟩ := e
    cases k' <;> simp [keyed, ih]

theorem paired_lexed {s : Str} (h : Paired s) : Lexed (stEscape s) := by
  induction h with
  | nil => exact .nil
  | @plain c s hc _ ih =>
    rw [stEscape]
    split
    · rename_i hb; exact .esc (.inl hb) ih
    · rename_i hb; exact .plain (by simpa using hb) hc ih
  | pair _ ih => exact .esc (.inr rfl) ih

theorem noBrackets_iff {s : Str} : NoBrackets s ↔ ∀ c ∈ s, isBracket c = false := by
  constructor
  · rintro ⟨h1, h2, h3, h4⟩ c hc
    cases hb : isBracket c with
    | false => rfl
    | true => rcases isBracket_iff.1 hb with rfl | rfl | rfl | rfl <;> contradiction
  · intro h
    refine ⟨fun hc => ?_, fun hc => ?_, fun hc => ?_, fun hc => ?_⟩ <;> cases h _ hc

theorem tokenLike_iff {s : Str} : TokenLike s ↔ ∃ n, s = stToken n := by
  simp [TokenLike, stToken]

theorem not_token_of {t : Str} {c : Char} (h : t.head? = some c) (hc : c ≠ '|') (n : Nat) : t ≠ stToken n := by
  rintro rfl
  simp [stToken] at h
  exact hc h.symm

section
variable {env : Env} {numbers : Bool}

theorem goodLeaf_text {s : Str} (h : TextOk env numbers s) : GoodLeaf env numbers (stEscape s) (.str s) := by
  obtain ⟨h1, h2, h3, h4, h5⟩ := h
  refine ⟨paired_lexed h1, fun hc => ?_, fun n hn => ?_, ?_⟩
  · rcases mem_stEscape hc with hc | hc
    · exact h2 hc
    · cases hc
  · apply h4
    rw [tokenLike_iff]
    refine ⟨n, ?_⟩
    rw [← hn]
    symm
    apply stEscape_id
    intro c hc
    cases hb : isBracket c with
    | false => rfl
    | true =>
      have := backslash_stEscape hc hb
      rw [hn] at this
      exact absurd rfl (mem_stToken this).2.1
  · cases numbers with
    | false =>
      rw [stSimple_text (mt reserved_stEscape.1 h3), stUnescape, (stUnescape_escape s).1]
    | true =>
      obtain ⟨hb, hn⟩ := h5 rfl
      rw [stEscape_id (noBrackets_iff.1 hb)]
      simp only [Reserved, not_or] at h3
      simp only [NumberLike, not_or, not_exists, not_and] at hn
      have hp : parseInt env.u s = none := by
        cases hx : parseInt env.u s with
        | none => rfl
        | some i => exact absurd hx (hn.1 i)
      have hf : (if s.contains '.' then env.floatOfStr s else none) = none := by
        split
        · rename_i hdot
          cases hx : env.floatOfStr s with
          | none => rfl
          | some x => exact absurd hx (hn.2 (by simpa using hdot) x)
        · rfl
      unfold stSimple
      simp only [h3.1, h3.2.1, h3.2.2, if_false, Bool.not_true, Bool.false_eq_true, hf, hp]

theorem goodLeaf_int (i : Int) (hn : numbers = true) : GoodLeaf env numbers (intStr i) (.int i) := by
  subst hn
  refine ⟨.of_plain fun c hc => ?_, not_mem_intStr (by decide) (by decide), fun n hn => ?_, stSimple_int env i⟩
  · constructor
    · cases hb : isBracket c with
      | false => rfl
      | true =>
        refine absurd hc (not_mem_intStr ?_ ?_) <;> rcases isBracket_iff.1 hb with rfl | rfl | rfl | rfl <;> decide
    · rintro rfl; exact absurd hc (not_mem_intStr (by decide) (by decide))
  · have : '|' ∈ intStr i := by rw [hn]; simp [stToken]
    exact absurd this (not_mem_intStr (by decide) (by decide))

theorem goodKey_of {k : Str} (h : PlainKey k) : GoodKey k := by
  obtain ⟨h1, h2, h3, h4⟩ := h
  have := paired_lexed h1
  rw [stEscape_id (noBrackets_iff.1 h4)] at this
  refine ⟨this, h2, h3, fun b => ?_⟩
  cases b
  · exact h4.2.2.1
  · exact h4.1

theorem docOf_nodes {str : Val → Str} {v : Val} (h : (docOf str v).nodes ≠ 0) : IsContainer v := by
  cases v with
  | list l => exact .inl ⟨l, rfl⟩
  | dict d => exact .inr ⟨d, rfl⟩
  | bool b => cases b <;> simp [docOf, Doc.nodes] at h
  | _ => simp [docOf, Doc.nodes] at h

theorem docOf_leaf_opener {v x : Val} {t : Str} (hw : Writable env numbers v) (h : docOf env.str v = .leaf t x)
    (b : Bool) (hb : opener b ∈ t) : ∃ s, v = .str s ∧ opener b ∈ s := by
  cases hw with
  | none => cases h; cases b <;> exact absurd hb (by decide)
  | bool a => cases a <;> cases h <;> cases b <;> exact absurd hb (by decide)
  | int i _ => cases h; cases b <;> exact absurd hb (not_mem_intStr (by decide) (by decide))
  | @text s _ =>
    cases h
    refine ⟨s, rfl, ?_⟩
    rcases mem_stEscape hb with h | h
    · exact h
    · cases b <;> exact absurd h (by decide)
  | list => cases h
  | dict => cases h

theorem docOf_text_nil {v : Val} (hw : Writable env numbers v) (h : (docOf env.str v).text = []) : v = .str [] := by
  cases hw with
  | none => cases h
  | bool a => cases a <;> cases h
  | int i _ => exact absurd h (intStr_ne_nil i)
  | @text s _ => rw [stEscape_nil h]
  | list => simp [docOf, Doc.text] at h
  | dict => simp [docOf, Doc.text] at h

theorem stContentL_eq {str : Val → Str} {l : List Val} (h : ∀ x ∈ l, stContent str x = some (docOf str x).text) :
    stContentL str l = some (Doc.texts false (docsOf str l)) := by
  induction l with
  | nil => rfl
  | cons v r ih =>
    rw [stContentL, h v (List.mem_cons_self ..), ih fun x hx => h x (List.mem_cons_of_mem _ hx), docsOf, Doc.texts]; rfl

theorem stContentD_eq {str : Val → Str} {d : List (Val × Val)} (hk : ∀ e ∈ d, ∃ k, e.1 = .str k)
    (h : ∀ e ∈ d, stContent str e.2 = some (docOf str e.2).text) :
    stContentD str d = some ((keyed d).map fun p => (p.1, (docOf str p.2).text)) := by
  induction d with
  | nil => rfl
  | cons e r ih =>
    obtain ⟨k, v⟩ := e
    obtain ⟨s, rfl⟩ := hk _ (List.mem_cons_self ..)
    have hv := h _ (List.mem_cons_self ..)
    simp only at hv
    rw [stContentD, hv, ih (fun x hx => hk x (List.mem_cons_of_mem _ hx)) fun x hx => h x (List.mem_cons_of_mem _ hx), keyed]; rfl

theorem keyOf {d : List (Val × Val)} (hk : ∀ e ∈ d, ∃ k, e.1 = .str k ∧ PlainKey k) : ∀ e ∈ d, ∃ k, e.1 = .str k :=
  fun e he => (hk e he).imp fun _ h => h.1

theorem stContent_eq {v : Val} (h : Writable env numbers v) : stContent env.str v = some (docOf env.str v).text := by
  induction h with
  | none => rfl
  | bool b => cases b <;> rfl
  | int i => rfl
  | text => rfl
  | list _ _ _ ih => simp only [stContent, stContentL_eq ih, docOf, Doc.text, Option.map_some]; rfl
  | @dict d _ hk _ _ ih =>
    simp only [stContent, stContentD_eq (keyOf hk) ih, docOf, Doc.text, Option.map_some, docsOfD_eq, sortEntries_map (fun v => docOf env.str v)]
    rw [sortEntries_map (fun v => (docOf env.str v).text), texts_eq]
    simp only [List.map_map]
    simp [Function.comp_def, pre, opener, closer]

theorem mem_sorted {str : Val → Str} {d : List (Val × Val)} {p : Str × Doc} (h : p ∈ sortEntries (docsOfD str d)) :
    ∃ v, (.str p.1, v) ∈ d ∧ p.2 = docOf str v := by
  have h := (sortEntries_perm _).mem_iff.1 h
  rw [docsOfD_eq] at h
  obtain ⟨q, hq, rfl⟩ := List.mem_map.1 h
  exact ⟨q.2, mem_keyed.1 hq, rfl⟩

theorem docOf_good {v : Val} (h : Writable env numbers v) : Good env numbers [] (docOf env.str v) := by
  induction h with
  | none => exact .leaf ⟨.of_plain (by decide), by decide, not_token_of rfl (by decide), rfl⟩
  | bool b => cases b <;> exact .leaf ⟨.of_plain (by decide), by decide, not_token_of rfl (by decide), rfl⟩
  | int i hn => exact .leaf (goodLeaf_int i hn)
  | text h => exact .leaf (goodLeaf_text h)
  | @list l h1 h2 hw ih =>
    have hmem : ∀ p ∈ docsOf env.str l, ∃ v ∈ l, p = ([], docOf env.str v) := by
      intro p hp
      rw [docsOf_eq] at hp
      obtain ⟨v, hv, rfl⟩ := List.mem_map.1 hp
      exact ⟨v, hv, rfl⟩
    refine .node (fun p hp => ?_) (by simp) (fun _ h0 => ?_) (fun h0 p hp t x hpt ho => ?_)
    · obtain ⟨v, hv, rfl⟩ := hmem p hp; exact ih v hv
    · apply h1
      cases l with
      | nil => simp [docsOf, Doc.texts] at h0
      | cons v r =>
        cases r with
        | nil =>
          simp only [docsOf, Doc.texts, pre, Bool.false_eq_true, if_false, List.nil_append, List.cons.injEq, and_true] at h0
          rw [docOf_text_nil (hw v (by simp)) h0]
        | cons => simp [docsOf, Doc.texts] at h0
    · obtain ⟨v, hv, rfl⟩ := hmem p hp
      obtain ⟨s, rfl, hs⟩ := docOf_leaf_opener (hw v hv) hpt false ho
      refine h2 ?_ s hv hs
      have : ∃ q ∈ docsOf env.str l, q.2.nodes ≠ 0 := by
        refine Classical.byContradiction fun hn => h0 (nodesL_eq_zero.2 fun q hq => ?_)
        exact Classical.byContradiction fun hq' => hn ⟨q, hq, hq'⟩
      obtain ⟨q, hq, hqn⟩ := this
      obtain ⟨w, hw', rfl⟩ := hmem q hq
      exact ⟨w, hw', docOf_nodes hqn⟩
  | @dict d h0 hk h2 hw ih =>
    refine .node (fun p hp => ?_) (fun _ => ⟨?_, fun p hp => ?_⟩) (by simp) (fun h0 p hp t x hpt ho => ?_)
    · obtain ⟨v, hv, he⟩ := mem_sorted hp
      rw [he]; exact ih _ hv
    · have hp := (sortEntries_perm (docsOfD env.str d)).map (·.1)
      refine hp.nodup_iff.2 ?_
      rw [docsOfD_eq, List.map_map]
      have : (d.map (·.1)) = ((keyed d).map (·.1)).map Val.str := by
        conv => lhs; rw [← keyed_eq (keyOf hk)]
        simp
      rw [this] at h0
      exact (List.pairwise_map.1 h0).imp fun h h' => h (congrArg _ h')
    · obtain ⟨v, hv, he⟩ := mem_sorted hp
      obtain ⟨k, hk', hok⟩ := hk _ hv
      cases hk'; exact goodKey_of hok
    · obtain ⟨v, hv, he⟩ := mem_sorted hp
      obtain ⟨s, rfl, hs⟩ := docOf_leaf_opener (hw _ hv) (he ▸ hpt) true ho
      refine h2 ?_ _ hv s rfl hs
      have : ∃ q ∈ sortEntries (docsOfD env.str d), q.2.nodes ≠ 0 := by
        refine Classical.byContradiction fun hn => h0 (nodesL_eq_zero.2 fun q hq => ?_)
        exact Classical.byContradiction fun hq' => hn ⟨q, hq, hq'⟩
      obtain ⟨q, hq, hqn⟩ := this
      obtain ⟨w, hw', he'⟩ := mem_sorted hq
      exact ⟨_, hw', docOf_nodes (he' ▸ hqn)⟩

theorem docOf_same {v : Val} (h : Writable env numbers v) : SameData v (docOf env.str v).value := by
  induction h with
  | none => exact .refl _
  | bool b => cases b <;> exact .refl _
  | int i => exact .refl _
  | text => exact .refl _
  | @list l h1 h2 h3 ih =>
    refine .list ?_
    rw [docsOf_eq, values_eq, List.map_map]
    clear h1 h2 h3
    induction l with
    | nil => exact .nil
    | cons v r ih' => exact .cons (ih v (List.mem_cons_self ..)) (ih' fun x hx => ih x (List.mem_cons_of_mem _ hx))
  | @dict d _ hk _ _ ih =>
    simp only [docOf, Doc.value, docsOfD_eq, sortEntries_map (fun v => docOf env.str v), entries_eq, List.map_map]
    refine .dict ((sortEntries (keyed d)).map fun p => (Val.str p.1, p.2)) ?_ ?_
    · conv => lhs; rw [← keyed_eq (keyOf hk)]
      exact ((sortEntries_perm _).map _).symm
    · have hm : ∀ p ∈ sortEntries (keyed d), SameData p.2 (docOf env.str p.2).value := by
        intro p hp
        exact ih _ (mem_keyed.1 ((sortEntries_perm _).mem_iff.1 hp))
      generalize sortEntries (keyed d) = l at hm
      induction l with
      | nil => exact .nil
      | cons p r ih' => exact .cons (hm p (List.mem_cons_self ..)) (ih' fun x hx => hm x (List.mem_cons_of_mem _ hx))

end

mutual
theorem nodes_le : (d : Doc) → d.nodes ≤ d.text.length
  | .tok _ _ => by simp [Doc.nodes]
  | .leaf _ _ => by simp [Doc.nodes]
  | .node b l => by
    have := nodesL_le b l
    simp only [Doc.nodes, Doc.text, List.length_cons, List.length_append]
    omega
theorem nodesL_le (b : Bool) : (l : List (Str × Doc)) → Doc.nodesL l ≤ (joinStr c!"," (Doc.texts b l)).length
  | [] => by simp [Doc.nodesL]
  | [(k, d)] => by
    have := nodes_le d
    simp only [Doc.nodesL, Doc.texts, joinStr, List.length_append]
    omega
  | (k, d) :: q :: r => by
    have h1 := nodes_le d
    have h2 := nodesL_le b (q :: r)
    obtain ⟨k', d'⟩ := q
    simp only [Doc.nodesL, Doc.texts, joinStr, List.length_append] at h2 ⊢
    omega
end

/-- C40. Lists and mappings of writable values are read back exactly. -/
theorem C40_roundtrip (env : Env) (numbers : Bool) (v : Val) (hc : IsContainer v) (h : Writable env numbers v) :
    ∃ t w, stSerialize env v = some t ∧ stUnserialize env numbers (.str t) = .ok w ∧ SameData v w := by
  refine ⟨_, _, stContent_eq h, ?_, docOf_same h⟩
  have hl : stLoop env numbers ((docOf env.str v).text.length + 1) [] (docOf env.str v).text = .ok (docOf env.str v).value := by
    refine stLoop_doc _ _ (Nat.lt_succ_of_le (nodes_le _)) [] (docOf_good h) rfl ?_
    rcases hc with ⟨l, rfl⟩ | ⟨d, rfl⟩ <;> exact id
  rcases hc with ⟨l, rfl⟩ | ⟨d, rfl⟩
  · simp only [docOf, Doc.text] at hl ⊢
    simp only [stUnserialize, opener, Bool.false_eq_true, if_false, or_true, if_true]
    exact hl
  · simp only [docOf, Doc.text] at hl ⊢
    simp only [stUnserialize, opener, if_true, true_or]
    exact hl

/-- C40. Tuples are written like lists. -/
theorem C40_tuple (env : Env) (l : List Val) : stSerialize env (.tuple l) = stSerialize env (.list l) := by
  simp [stSerialize, stContent]

/-! ### Reading always ends -/

def opens (s : Str) : Nat := s.countP fun c => c == '{' || c == '['

theorem opens_stToken (n : Nat) : opens (stToken n) = 0 := by
  unfold opens
  rw [List.countP_eq_zero]
  intro c hc h
  have := (mem_stToken hc).1
  simp [isBracket] at this h
  rcases h with h | h
  · exact this.1.1.1 h
  · exact this.1.2 h

theorem stMatch_head {c : Char} {r : Str} {x : Bool × Str} (h : stMatch (c :: r) = some x) : c = '{' ∨ c = '[' := by
  unfold stMatch at h
  split at h
  · rename_i heq; cases heq; exact .inl rfl
  · rename_i heq; cases heq; exact .inr rfl
  · cases h

theorem stPass_opens {env : Env} {numbers : Bool} (s : Str) : ∀ (k : Nat) (S : List (Str × Val)) (out : Str × List (Str × Val) × Nat),
    stPass env numbers k S s = .ok out → opens out.1 + out.2.2 ≤ opens s := by
  induction s with
  | nil => intro k S out h; cases k <;> cases h <;> simp [opens]
  | cons c r ih =>
    intro k S out h
    have hle : opens r ≤ opens (c :: r) := by simp only [opens, List.countP_cons]; omega
    cases k with
    | succ k => exact Nat.le_trans (ih k S out h) hle
    | zero =>
      rw [stPass] at h
      split at h
      · rename_i brace inner hm
        simp only [except_bind_eq_ok] at h
        obtain ⟨v, -, ⟨o1, o2, o3⟩, ho, h⟩ := h
        cases h
        have := ih _ _ _ ho
        have hc : opens (c :: r) = opens r + 1 := by
          rcases stMatch_head hm with rfl | rfl <;> simp [opens]
        have ht := opens_stToken S.length
        simp only [opens, List.countP_append] at this ht hc ⊢
        omega
      · simp only [except_bind_eq_ok] at h
        obtain ⟨⟨o1, o2, o3⟩, ho, h⟩ := h
        cases h
        have := ih _ _ _ ho
        simp only [opens, List.countP_cons] at this ⊢
        omega

theorem stPairs_error {env : Env} {numbers : Bool} {S : List (Str × Val)} {l : List Str} {e : Exn}
    (h : stPairs env numbers S l = .error e) : e = .py .valueError := by
  induction l with
  | nil => cases h
  | cons p r ih =>
    rw [stPairs] at h
    split at h
    · cases h; rfl
    · rcases except_bind_eq_error.1 h with h | ⟨x, -, h⟩
      · exact ih h
      · cases h

theorem stPass_error {env : Env} {numbers : Bool} (s : Str) : ∀ (k : Nat) (S : List (Str × Val)) (e : Exn),
    stPass env numbers k S s = .error e → e = .py .valueError := by
  induction s with
  | nil => intro k S e h; cases k <;> cases h
  | cons c r ih =>
    intro k S e h
    cases k with
    | succ k => exact ih k S e h
    | zero =>
      rw [stPass] at h
      split at h
      · rcases except_bind_eq_error.1 h with h | ⟨v, -, h⟩
        · unfold stStructure at h
          split at h
          · split at h
            · cases h
            · rcases except_bind_eq_error.1 h with h | ⟨x, -, h⟩
              · exact stPairs_error h
              · cases h
          · split at h <;> cases h
        · rcases except_bind_eq_error.1 h with h | ⟨x, -, h⟩
          · exact ih _ _ _ h
          · cases h
      · rcases except_bind_eq_error.1 h with h | ⟨x, -, h⟩
        · exact ih _ _ _ h
        · cases h

theorem stLoop_error {env : Env} {numbers : Bool} (f : Nat) : ∀ (S : List (Str × Val)) (s : Str) (e : Exn), opens s < f →
    stLoop env numbers f S s = .error e → e = .py .valueError ∨ e = .py .keyError := by
  induction f with
  | zero => intro S s e h; omega
  | succ f ih =>
    intro S s e hf h
    rw [stLoop] at h
    rcases except_bind_eq_error.1 h with h | ⟨⟨t, S', n⟩, hp, h⟩
    · exact .inl (stPass_error s 0 S e h)
    · simp only at h
      have := stPass_opens s 0 S _ hp
      simp only at this
      split at h
      · split at h
        · cases h
        · cases h; exact .inr rfl
      · exact ih S' t e (by omega) h

/-- C40. Reading ends for every input; it fails with ValueError, KeyError or IndexError only. -/
theorem C40_terminates (env : Env) (numbers : Bool) (v : Val) (e : Exn) (h : stUnserialize env numbers v = .error e) :
    e = .py .valueError ∨ e = .py .keyError ∨ e = .py .indexError := by
  cases v with
  | str s =>
    cases s with
    | nil => cases h; simp
    | cons c r =>
      rw [stUnserialize] at h
      split at h
      · have : opens (c :: r) < (c :: r).length + 1 := Nat.lt_succ_of_le List.countP_le_length
        rcases stLoop_error _ _ _ _ this h with h | h
        · exact .inl h
        · exact .inr (.inl h)
      · cases h
  | _ => cases h; simp

/-! ### What is not carried -/

/-- C40. A text spelled like an internal marker is replaced by another part of the document. -/
theorem C40_marker : (stSerialize Ex.env (.list [.list [.str c!"a"], .str c!"||0||"])).map (stUnserialize Ex.env false ∘ .str) =
    some (.ok (.list [.list [.str c!"a"], .list [.str c!"a"]])) := by rfl

/-- C40. A text with a comma is read as two. -/
theorem C40_comma : (stSerialize Ex.env (.list [.str c!"a,b"])).map (stUnserialize Ex.env false ∘ .str) =
    some (.ok (.list [.str c!"a", .str c!"b"])) := by rfl

/-- C40. A backslash makes the list unreadable. -/
theorem C40_backslash : (stSerialize Ex.env (.list [.str c!"\\"])).map (stUnserialize Ex.env false ∘ .str) =
    some (.error (.py .keyError)) := by rfl

/-- C40. An opening brace behind a nested list makes the mapping unreadable, although it is escaped. -/
theorem C40_brace : (stSerialize Ex.env (.dict [(.str c!"a", .list [.str c!"x"]), (.str c!"b", .str c!"{")])).map
    (stUnserialize Ex.env false ∘ .str) = some (.error (.py .keyError)) := by rfl

/-- C40. The list of one empty text is read as the empty list. -/
theorem C40_single_empty : (stSerialize Ex.env (.list [.str []])).map (stUnserialize Ex.env false ∘ .str) =
    some (.ok (.list [])) := by rfl

/-! ### Cases -/

example : stSerialize Ex.env (.dict [(.str c!"b", .str c!"x{"), (.str c!"a", .bool true)]) = some c!"{a:true,b:x\\{}" := by rfl

/-- A writable value: `{"b": "x", "a": [1, [null]]}`, read with numbers. -/
example : Writable Ex.env true (.dict [(.str c!"b", .str c!"x"), (.str c!"a", .list [.int 1, .list [.none]])]) := by
  have htext : TextOk Ex.env true c!"x" := by
    refine ⟨.plain (by decide) .nil, by decide, ?_, ?_, fun _ => ⟨⟨by decide, by decide, by decide, by decide⟩, ?_⟩⟩
    · rintro (h | h | h) <;> exact absurd h (by decide)
    · rintro ⟨n, h⟩; simp at h
    · rintro (⟨i, h⟩ | ⟨h, -⟩)
      · cases h
      · exact absurd h (by decide)
  have hk : ∀ c, c ∈ c!"ab" → PlainKey [c] := by
    intro c hc
    simp only [List.mem_cons, List.not_mem_nil, or_false] at hc
    rcases hc with rfl | rfl <;>
      exact ⟨.plain (by decide) .nil, by decide, by decide, by decide, by decide, by decide, by decide⟩
  refine .dict (by simp) ?_ ?_ ?_
  · intro e he
    simp only [List.mem_cons, List.not_mem_nil, or_false] at he
    rcases he with rfl | rfl
    · exact ⟨_, rfl, hk _ (by decide)⟩
    · exact ⟨_, rfl, hk _ (by decide)⟩
  · intro _ e he s hs
    simp only [List.mem_cons, List.not_mem_nil, or_false] at he
    rcases he with rfl | rfl <;> cases hs
    decide
  · intro e he
    simp only [List.mem_cons, List.not_mem_nil, or_false] at he
    rcases he with rfl | rfl
    · exact .text htext
    · refine .list (by simp) (by simp) ?_
      intro x hx
      simp only [List.mem_cons, List.not_mem_nil, or_false] at hx
      rcases hx with rfl | rfl
      · exact .int 1 rfl
      · refine .list (by simp) (by simp) ?_
        intro x hx
        simp only [List.mem_cons, List.not_mem_nil, or_false] at hx
        subst hx; exact .none

end Scheme
