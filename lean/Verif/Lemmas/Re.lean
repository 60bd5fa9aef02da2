import Verif.Spec.Text
import Verif.Lemmas.Chars

namespace Scheme

namespace Re

theorem nullable_iff (r : Re) : r.nullable = true ↔ Matches r [] := by
  constructor
  · intro h
    induction r with
    | empty => simp [nullable] at h
    | eps => exact .eps
    | cls p => simp [nullable] at h
    | seq a b iha ihb =>
      simp only [nullable, Bool.and_eq_true] at h
      exact .seq (s := []) (t := []) (iha h.1) (ihb h.2)
    | alt a b iha ihb =>
      simp only [nullable, Bool.or_eq_true] at h
      rcases h with h | h
      · exact .left (iha h)
      · exact .right (ihb h)
    | star a ih => exact .nil
  · intro h
    generalize hs : ([] : Str) = s at h
    induction h with
    | eps => rfl
    | cls _ => simp at hs
    | seq _ _ ih1 ih2 =>
      have := List.nil_eq_append_iff.1 hs
      simp [nullable, ih1 this.1.symm, ih2 this.2.symm]
    | left _ ih => simp [nullable, ih hs]
    | right _ ih => simp [nullable, ih hs]
    | nil => rfl
    | cons _ _ _ _ => rfl

theorem matches_seq {a b : Re} {s : Str} : Matches (.seq a b) s ↔ ∃ x y, s = x ++ y ∧ Matches a x ∧ Matches b y := by
  constructor
  · intro h; cases h; exact ⟨_, _, rfl, ‹_›, ‹_›⟩
  · rintro ⟨x, y, rfl, h1, h2⟩; exact .seq h1 h2

theorem matches_alt {a b : Re} {s : Str} : Matches (.alt a b) s ↔ Matches a s ∨ Matches b s := by
  constructor
  · intro h; cases h
    · exact .inl ‹_›
    · exact .inr ‹_›
  · rintro (h | h)
    · exact .left h
    · exact .right h

theorem matches_eps {s : Str} : Matches .eps s ↔ s = [] := by
  constructor
  · intro h; cases h; rfl
  · rintro rfl; exact .eps

theorem matches_empty {s : Str} : ¬ Matches .empty s := by intro h; cases h

theorem matches_cls {p : Char → Bool} {s : Str} : Matches (.cls p) s ↔ ∃ c, s = [c] ∧ p c = true := by
  constructor
  · intro h; cases h; exact ⟨_, rfl, ‹_›⟩
  · rintro ⟨c, rfl, h⟩; exact .cls h

theorem matches_chr {x : Char} {s : Str} : Matches (.chr x) s ↔ s = [x] := by
  rw [chr, matches_cls]
  constructor
  · rintro ⟨c, rfl, h⟩; simp only [beq_iff_eq] at h; rw [h]
  · rintro rfl; exact ⟨x, rfl, by simp⟩

/-- A non-empty text of a star starts with a non-empty text of its body. -/
theorem matches_star_cons {a : Re} {c : Char} {s : Str} :
    Matches (.star a) (c :: s) ↔ ∃ x y, s = x ++ y ∧ Matches a (c :: x) ∧ Matches (.star a) y := by
  constructor
  · intro h
    generalize hr : Re.star a = r at h
    generalize ht : c :: s = t at h
    induction h with
    | nil => simp at ht
    | cons h1 h2 _ ih =>
      cases hr
      rename_i u v _
      cases u with
      | nil => exact ih rfl ht
      | cons x xs =>
        simp only [List.cons_append, List.cons.injEq] at ht
        obtain ⟨rfl, rfl⟩ := ht
        exact ⟨xs, v, rfl, h1, h2⟩
    | _ => simp at hr
  · rintro ⟨x, y, rfl, h1, h2⟩
    exact .cons (s := c :: x) h1 h2

theorem deriv_iff (r : Re) (c : Char) (s : Str) : Matches (r.deriv c) s ↔ Matches r (c :: s) := by
  induction r generalizing s with
  | empty => simp [deriv, matches_empty]
  | eps => simp [deriv, matches_empty, matches_eps]
  | cls p =>
    rw [deriv, matches_cls]
    by_cases h : p c = true
    · rw [if_pos h, matches_eps]
      constructor
      · rintro rfl; exact ⟨c, rfl, h⟩
      · rintro ⟨d, hd, _⟩; simp only [List.cons.injEq] at hd; exact hd.2
    · simp only [h, Bool.false_eq_true, if_false, matches_empty, false_iff, List.cons.injEq, not_exists, not_and]
      rintro x ⟨rfl, _⟩; simpa using h
  | alt a b iha ihb => rw [deriv, matches_alt, matches_alt, iha, ihb]
  | star a ih =>
    rw [deriv, matches_seq, matches_star_cons]
    simp only [ih]
  | seq a b iha ihb =>
    have hsplit : Matches (.seq a b) (c :: s) ↔
        (∃ x y, s = x ++ y ∧ Matches a (c :: x) ∧ Matches b y) ∨ (Matches a [] ∧ Matches b (c :: s)) := by
      rw [matches_seq]
      constructor
      · rintro ⟨x, y, h, h1, h2⟩
        cases x with
        | nil => simp only [List.nil_append] at h; subst h; exact .inr ⟨h1, h2⟩
        | cons z zs =>
          simp only [List.cons_append, List.cons.injEq] at h
          obtain ⟨rfl, rfl⟩ := h
          exact .inl ⟨zs, y, rfl, h1, h2⟩
      · rintro (⟨x, y, rfl, h1, h2⟩ | ⟨h1, h2⟩)
        · exact ⟨c :: x, y, rfl, h1, h2⟩
        · exact ⟨[], c :: s, rfl, h1, h2⟩
    rw [hsplit, deriv, ← nullable_iff]
    cases a.nullable
    · simp only [Bool.false_eq_true, if_false, matches_seq, iha, false_and, or_false]
    · simp only [if_true, matches_alt, matches_seq, iha, ihb, true_and]

/-- The executable matcher decides the language. -/
theorem accepts_iff (r : Re) (s : Str) : r.accepts s = true ↔ Matches r s := by
  induction s generalizing r with
  | nil => exact nullable_iff r
  | cons c s ih => rw [accepts, ih, deriv_iff]

theorem matchDollar_iff (r : Re) (s : Str) :
    r.matchDollar s = true ↔ Matches r s ∨ ∃ t, s = t ++ ['\n'] ∧ Matches r t := by
  simp only [matchDollar, Bool.or_eq_true, Bool.and_eq_true, accepts_iff, decide_eq_true_eq]
  constructor
  · rintro (h | ⟨h1, h2⟩)
    · exact .inl h
    · refine .inr ⟨s.dropLast, ?_, h2⟩
      have hne : s ≠ [] := by rintro rfl; simp at h1
      have := List.dropLast_concat_getLast hne
      rw [List.getLast?_eq_some_getLast hne] at h1
      simp only [Option.some.injEq] at h1
      rw [h1] at this; exact this.symm
  · rintro (h | ⟨t, rfl, h⟩)
    · exact .inl h
    · right; simp [h]

theorem matches_star_cls {p : Char → Bool} {s : Str} : Matches (.star (.cls p)) s ↔ ∀ c ∈ s, p c = true := by
  induction s with
  | nil => exact ⟨fun _ => by simp, fun _ => .nil⟩
  | cons c s ih =>
    rw [matches_star_cons]
    constructor
    · rintro ⟨x, y, rfl, h1, h2⟩
      obtain ⟨d, hd, hp⟩ := matches_cls.1 h1
      simp only [List.cons.injEq] at hd
      obtain ⟨rfl, rfl⟩ := hd
      simp only [List.nil_append] at ih
      simp only [List.nil_append, List.mem_cons]
      rintro x (rfl | hx)
      · exact hp
      · exact ih.1 h2 x hx
    · intro h
      exact ⟨[], s, rfl, .cls (h c (List.mem_cons_self ..)), ih.2 fun x hx => h x (List.mem_cons_of_mem _ hx)⟩

theorem matches_rep_cls {p : Char → Bool} {n : Nat} {s : Str} :
    Matches (.rep (.cls p) n) s ↔ s.length = n ∧ ∀ c ∈ s, p c = true := by
  induction n generalizing s with
  | zero =>
    rw [rep, matches_eps]
    constructor
    · rintro rfl; simp
    · rintro ⟨h, _⟩; exact List.length_eq_zero_iff.1 h
  | succ n ih =>
    rw [rep, matches_seq]
    constructor
    · rintro ⟨x, y, rfl, h1, h2⟩
      obtain ⟨c, rfl, hc⟩ := matches_cls.1 h1
      obtain ⟨h3, h4⟩ := ih.1 h2
      refine ⟨by simp [h3], ?_⟩
      intro d hd
      simp only [List.cons_append, List.nil_append, List.mem_cons] at hd
      rcases hd with rfl | hd
      · exact hc
      · exact h4 d hd
    · rintro ⟨h1, h2⟩
      cases s with
      | nil => simp at h1
      | cons c s =>
        exact ⟨[c], s, rfl, .cls (h2 c (List.mem_cons_self ..)), ih.2 ⟨by simpa using h1, fun d hd => h2 d (List.mem_cons_of_mem _ hd)⟩⟩

theorem matches_opt {r : Re} {s : Str} : Matches (.opt r) s ↔ Matches r s ∨ s = [] := by
  rw [opt, matches_alt, matches_eps]

theorem matches_plus_cls {p : Char → Bool} {s : Str} : Matches (.plus (.cls p)) s ↔ s ≠ [] ∧ ∀ c ∈ s, p c = true := by
  rw [plus, matches_seq]
  constructor
  · rintro ⟨x, y, rfl, h1, h2⟩
    obtain ⟨c, rfl, hc⟩ := matches_cls.1 h1
    refine ⟨by simp, ?_⟩
    intro d hd
    simp only [List.cons_append, List.nil_append, List.mem_cons] at hd
    rcases hd with rfl | hd
    · exact hc
    · exact matches_star_cls.1 h2 d hd
  · rintro ⟨h1, h2⟩
    cases s with
    | nil => exact absurd rfl h1
    | cons c s =>
      exact ⟨[c], s, rfl, .cls (h2 c (List.mem_cons_self ..)), matches_star_cls.2 fun d hd => h2 d (List.mem_cons_of_mem _ hd)⟩

/-- Words of a pattern, each preceded by a separator. -/
theorem matches_star_sep {sep : Char} {r : Re} {s : Str} :
    Matches (.star (.seq (.chr sep) r)) s ↔ ∃ l : List Str, (∀ x ∈ l, Matches r x) ∧ s = l.flatMap (sep :: ·) := by
  constructor
  · intro h
    generalize hr : Re.star (.seq (.chr sep) r) = q at h
    induction h with
    | nil => exact ⟨[], by simp, rfl⟩
    | cons h1 _ _ ih =>
      cases hr
      obtain ⟨l, hl, rfl⟩ := ih rfl
      obtain ⟨x, y, rfl, h2, h3⟩ := matches_seq.1 h1
      rw [matches_chr] at h2; subst h2
      refine ⟨y :: l, ?_, by simp⟩
      intro z hz
      rcases List.mem_cons.1 hz with rfl | hz
      · exact h3
      · exact hl z hz
    | _ => simp at hr
  · rintro ⟨l, hl, rfl⟩
    induction l with
    | nil => exact .nil
    | cons x l ih =>
      rw [List.flatMap_cons]
      refine .cons (matches_seq.2 ⟨[sep], x, rfl, matches_chr.2 rfl, hl x (List.mem_cons_self ..)⟩) ?_
      exact ih fun y hy => hl y (List.mem_cons_of_mem _ hy)

end Re

theorem joined_cons (sep : Char) (x : Str) (l : List Str) : Joined sep (x :: l) = x ++ l.flatMap (sep :: ·) := by
  induction l generalizing x with
  | nil => simp [Joined]
  | cons y l ih => rw [Joined, ih]; simp

/-- A separated list of words of a pattern. -/
theorem matches_joined {sep : Char} {r : Re} {s : Str} :
    Matches (.seq r (.star (.seq (.chr sep) r))) s ↔
      ∃ l : List Str, l ≠ [] ∧ (∀ x ∈ l, Matches r x) ∧ s = Joined sep l := by
  rw [Re.matches_seq]
  constructor
  · rintro ⟨x, y, rfl, h1, h2⟩
    obtain ⟨l, hl, rfl⟩ := Re.matches_star_sep.1 h2
    refine ⟨x :: l, by simp, ?_, (joined_cons ..).symm⟩
    intro z hz
    rcases List.mem_cons.1 hz with rfl | hz
    · exact h1
    · exact hl z hz
  · rintro ⟨l, hne, hl, rfl⟩
    cases l with
    | nil => exact absurd rfl hne
    | cons x l =>
      refine ⟨x, _, joined_cons .., hl x (List.mem_cons_self ..), Re.matches_star_sep.2 ⟨l, fun y hy => hl y (List.mem_cons_of_mem _ hy), rfl⟩⟩

/-! ### Tokens -/

theorem tokenSegment_iff (u : Chars) (s : Str) : Matches (tokenSegment u) s ↔ IsSegment u s := by
  rw [tokenSegment, Re.matches_seq]
  simp only [Re.matches_cls, Re.matches_opt, Re.matches_seq, Re.matches_star_cls, isWord_iff]
  have htc : ∀ c, tokenChar u c = true ↔ (WordChar u c ∨ c = '-' ∨ c = '+' ∨ c = '.') := by
    intro c; rw [← isWord_iff]; simp [tokenChar, or_assoc]
  constructor
  · rintro ⟨_, y, rfl, ⟨c, rfl, hc⟩, ⟨a, b, rfl, ha, d, rfl, hd⟩ | rfl⟩
    · refine ⟨?_, ⟨c, rfl, hc⟩, ⟨d, by rw [List.singleton_append, ← List.cons_append, List.getLast?_append]; simp, hd⟩⟩
      intro x hx
      simp only [List.cons_append, List.nil_append, List.mem_cons, List.mem_append, List.not_mem_nil, or_false] at hx
      rcases hx with rfl | hx | rfl
      · exact .inl hc
      · exact (htc x).1 (ha x hx)
      · exact .inl hd
    · refine ⟨?_, ⟨c, rfl, hc⟩, ⟨c, rfl, hc⟩⟩
      intro x hx
      simp only [List.append_nil, List.mem_singleton] at hx
      subst hx; exact .inl hc
  · rintro ⟨h1, ⟨c, h2, hc⟩, ⟨d, h3, hd⟩⟩
    cases s with
    | nil => simp at h2
    | cons x r =>
      simp only [List.head?_cons, Option.some.injEq] at h2
      subst h2
      refine ⟨[x], r, rfl, ⟨x, rfl, hc⟩, ?_⟩
      cases hr : r.reverse with
      | nil => right; simpa using hr
      | cons z zs =>
        left
        have hr' : r = zs.reverse ++ [z] := by
          have := congrArg List.reverse hr; simpa using this
        subst hr'
        have : z = d := by
          rw [← List.cons_append, List.getLast?_append] at h3; simpa using h3
        subst this
        refine ⟨zs.reverse, [z], rfl, fun y hy => (htc y).2 (h1 y ?_), z, rfl, hd⟩
        exact List.mem_cons_of_mem _ (List.mem_append_left _ hy)

theorem segment_no_colon {u : Chars} (s : Str) (h : IsSegment u s) : s.count ':' = 0 := by
  rw [List.count_eq_zero]
  intro hm
  rcases h.1 _ hm with h | h | h | h
  · rw [← isWord_iff, isWord, if_pos (by decide)] at h; exact absurd h (by decide)
  · exact absurd h (by decide)
  · exact absurd h (by decide)
  · exact absurd h (by decide)

theorem count_joined {u : Chars} (l : List Str) (hne : l ≠ []) (h : ∀ x ∈ l, IsSegment u x) :
    (Joined ':' l).count ':' + 1 = l.length := by
  cases l with
  | nil => exact absurd rfl hne
  | cons x l =>
    rw [joined_cons, List.count_append, segment_no_colon x (h x (List.mem_cons_self ..))]
    have : (l.flatMap (':' :: ·)).count ':' = l.length := by
      clear hne
      induction l with
      | nil => rfl
      | cons y l ih =>
        have hy := segment_no_colon y (h y (by simp))
        rw [List.flatMap_cons, List.count_append, List.count_cons, hy, ih (fun z hz => h z (by
          simp only [List.mem_cons] at hz ⊢; rcases hz with hz | hz; exact .inl hz; exact .inr (.inr hz)))]
        simp [Nat.add_comm]
    rw [this, Nat.zero_add, List.length_cons]

theorem tokenRe_iff (u : Chars) (s : Str) : Matches (tokenRe u) s ↔ IsToken u s (s.count ':' + 1) := by
  rw [tokenRe, matches_joined]
  simp only [tokenSegment_iff]
  constructor
  · rintro ⟨l, h1, h2, rfl⟩
    exact ⟨l, h1, (count_joined l h1 h2).symm, h2, rfl⟩
  · rintro ⟨l, h1, -, h2, rfl⟩
    exact ⟨l, h1, h2, rfl⟩

/-! ### UUIDs -/

theorem hexChar_iff (c : Char) : hexChar c = true ↔ IsHex c := by
  unfold hexChar IsHex asciiDigit
  have key : ∀ (d : Char), c = d ↔ c.toNat = d.toNat := fun d =>
    ⟨fun h => h ▸ rfl, fun h => Char.toNat_inj.1 h⟩
  simp only [List.mem_cons, List.not_mem_nil, or_false, key, Bool.or_eq_true, Bool.and_eq_true, decide_eq_true_eq]
  show _ ↔ c.toNat = 48 ∨ c.toNat = 49 ∨ c.toNat = 50 ∨ c.toNat = 51 ∨ c.toNat = 52 ∨ c.toNat = 53 ∨ c.toNat = 54 ∨
    c.toNat = 55 ∨ c.toNat = 56 ∨ c.toNat = 57 ∨ c.toNat = 97 ∨ c.toNat = 98 ∨ c.toNat = 99 ∨ c.toNat = 100 ∨
    c.toNat = 101 ∨ c.toNat = 102
  omega

theorem uuidRe_iff (s : Str) : Matches uuidRe s ↔ IsUuid s := by
  simp only [uuidRe, Re.matches_seq, Re.matches_chr, Re.matches_rep_cls, hexChar_iff, IsUuid]
  constructor
  · rintro ⟨a, _, rfl, ⟨a1, a2⟩, _, _, rfl, rfl, b, _, rfl, ⟨b1, b2⟩, _, _, rfl, rfl, c, _, rfl, ⟨c1, c2⟩, _, _, rfl, rfl,
      d, _, rfl, ⟨d1, d2⟩, _, e, rfl, rfl, e1, e2⟩
    refine ⟨a, b, c, d, e, by simp, a1, b1, c1, d1, e1, ?_⟩
    intro x hx
    simp only [List.mem_append] at hx
    rcases hx with (((h | h) | h) | h) | h
    · exact a2 x h
    · exact b2 x h
    · exact c2 x h
    · exact d2 x h
    · exact e2 x h
  · rintro ⟨a, b, c, d, e, rfl, a1, b1, c1, d1, e1, h⟩
    refine ⟨a, _, rfl, ⟨a1, fun x hx => h x (by simp [hx])⟩, ['-'], _, rfl, rfl, b, _, rfl,
      ⟨b1, fun x hx => h x (by simp [hx])⟩, ['-'], _, rfl, rfl, c, _, rfl, ⟨c1, fun x hx => h x (by simp [hx])⟩,
      ['-'], _, rfl, rfl, d, _, rfl, ⟨d1, fun x hx => h x (by simp [hx])⟩, ['-'], e, rfl, rfl, e1,
      fun x hx => h x (by simp [hx])⟩

end Scheme
