import Verif.Props.Text

/-! C54: email addresses. -/

namespace Scheme

/-! ### Character classes -/

/-- A statement about an ASCII character can be checked on all of them. -/
theorem ascii_all {P : Char → Bool} (h : ∀ n : Fin 128, P (Char.ofNat n.val) = true) (c : Char) (hc : c.toNat < 128) :
    P c = true := by
  have := h ⟨c.toNat, hc⟩
  simpa using this

theorem atomChar_iff (c : Char) : atomChar c = true ↔ IsAtomChar c := by
  by_cases hc : c.toNat < 128
  · have := ascii_all (P := fun c => atomChar c == decide (c ∈ c!"abcdefghijklmnopqrstuvwxyzABCDEFGHIJKLMNOPQRSTUVWXYZ0123456789-!#$%&'*+/=?^_`{}|~")) (by decide +kernel) c hc
    simp only [beq_iff_eq] at this
    rw [this, decide_eq_true_eq]; rfl
  · constructor
    · intro h
      simp only [atomChar, asciiAlpha, asciiUpper, asciiLower, asciiDigit, Bool.or_eq_true, Bool.and_eq_true, decide_eq_true_eq] at h
      rcases h with h | h
      · omega
      · have h : c ∈ c!"-!#$%&'*+/=?^_`{}|~" := by simpa using h
        have := (by decide : ∀ x ∈ c!"-!#$%&'*+/=?^_`{}|~", x.toNat < 128) c h
        exact absurd this hc
    · intro h
      have := (by decide +kernel : ∀ x ∈ c!"abcdefghijklmnopqrstuvwxyzABCDEFGHIJKLMNOPQRSTUVWXYZ0123456789-!#$%&'*+/=?^_`{}|~", x.toNat < 128) c h
      exact absurd this hc

theorem asciiAlpha_iff (c : Char) : asciiAlpha c = true ↔ IsLetter c := by
  by_cases hc : c.toNat < 128
  · have := ascii_all (P := fun c => asciiAlpha c == decide (c ∈ c!"abcdefghijklmnopqrstuvwxyzABCDEFGHIJKLMNOPQRSTUVWXYZ")) (by decide +kernel) c hc
    simp only [beq_iff_eq] at this
    rw [this, decide_eq_true_eq]; rfl
  · constructor
    · intro h
      simp only [asciiAlpha, asciiUpper, asciiLower, Bool.or_eq_true, Bool.and_eq_true, decide_eq_true_eq] at h
      omega
    · intro h
      have := (by decide +kernel : ∀ x ∈ c!"abcdefghijklmnopqrstuvwxyzABCDEFGHIJKLMNOPQRSTUVWXYZ", x.toNat < 128) c h
      exact absurd this hc

theorem domainChar_iff (c : Char) : domainChar c = true ↔ IsLabelChar c := by
  by_cases hc : c.toNat < 128
  · have := ascii_all (P := fun c => domainChar c == decide (c ∈ c!"abcdefghijklmnopqrstuvwxyzABCDEFGHIJKLMNOPQRSTUVWXYZ0123456789-")) (by decide +kernel) c hc
    simp only [beq_iff_eq] at this
    rw [this, decide_eq_true_eq]; rfl
  · constructor
    · intro h
      simp only [domainChar, asciiAlpha, asciiUpper, asciiLower, asciiDigit, Bool.or_eq_true, Bool.and_eq_true, decide_eq_true_eq,
        beq_iff_eq] at h
      rcases h with h | rfl
      · omega
      · exact absurd (by decide) hc
    · intro h
      have := (by decide +kernel : ∀ x ∈ c!"abcdefghijklmnopqrstuvwxyzABCDEFGHIJKLMNOPQRSTUVWXYZ0123456789-", x.toNat < 128) c h
      exact absurd this hc

theorem qtextChar_iff (c : Char) : qtextChar c = true ↔ IsQText c := by
  by_cases hc : c.toNat < 128
  · have := ascii_all (P := fun c => qtextChar c == decide (0 < c.toNat ∧ c.toNat < 128 ∧ c ∉ c!"\t\n\r \"\\")) (by decide +kernel) c hc
    simp only [beq_iff_eq] at this
    rw [this, decide_eq_true_eq]; rfl
  · constructor
    · intro h
      simp only [qtextChar, Bool.or_eq_true, Bool.and_eq_true, decide_eq_true_eq, beq_iff_eq] at h
      omega
    · intro h; exact absurd h.2.1 hc

theorem qpairChar_iff (c : Char) : qpairChar c = true ↔ IsQPair c := by
  by_cases hc : c.toNat < 128
  · have := ascii_all (P := fun c => qpairChar c == decide (0 < c.toNat ∧ c.toNat < 128 ∧ c ∉ c!"\n\r")) (by decide +kernel) c hc
    simp only [beq_iff_eq] at this
    rw [this, decide_eq_true_eq]; rfl
  · constructor
    · intro h
      simp only [qpairChar, Bool.or_eq_true, Bool.and_eq_true, decide_eq_true_eq, beq_iff_eq] at h
      omega
    · intro h; exact absurd h.2.1 hc

theorem emailSep_eq (c : Char) : emailSep c = IsEmailSep c := by
  by_cases hc : c.toNat < 128
  · have := ascii_all (P := fun c => emailSep c == IsEmailSep c) (by decide +kernel) c hc
    simpa using this
  · rw [Bool.eq_iff_iff]
    constructor
    · intro h
      simp only [emailSep, Bool.or_eq_true, Bool.and_eq_true, decide_eq_true_eq, beq_iff_eq] at h
      rcases h with (((rfl | h) | rfl) | rfl) | rfl
      · exact absurd (by decide) hc
      · omega
      · exact absurd (by decide) hc
      · exact absurd (by decide) hc
      · exact absurd (by decide) hc
    · intro h
      have h : c ∈ c!" \t\n\r\x0b\x0c,;:" := by simpa [IsEmailSep] using h
      have := (by decide : ∀ x ∈ c!" \t\n\r\x0b\x0c,;:", x.toNat < 128) c h
      exact absurd this hc

/-! ### The grammar -/

theorem quotedBody_append {a b : Str} (ha : QuotedBody a) (hb : QuotedBody b) : QuotedBody (a ++ b) := by
  induction ha with
  | nil => exact hb
  | text h _ ih => exact .text h ih
  | pair h _ ih => exact .pair h ih

theorem quotedBody_iff (s : Str) :
    Matches (.star (.alt (.cls qtextChar) (.seq (.chr '\\') (.cls qpairChar)))) s ↔ QuotedBody s := by
  constructor
  · intro h
    generalize hr : Re.star (.alt (.cls qtextChar) (.seq (.chr '\\') (.cls qpairChar))) = r at h
    induction h with
    | nil => exact .nil
    | cons h1 _ _ ih =>
      cases hr
      have ih := ih rfl
      rcases Re.matches_alt.1 h1 with h | h
      · obtain ⟨c, rfl, hc⟩ := Re.matches_cls.1 h
        exact .text ((qtextChar_iff c).1 hc) ih
      · obtain ⟨x, y, rfl, hx, hy⟩ := Re.matches_seq.1 h
        rw [Re.matches_chr] at hx; subst hx
        obtain ⟨c, rfl, hc⟩ := Re.matches_cls.1 hy
        exact .pair ((qpairChar_iff c).1 hc) ih
    | _ => simp at hr
  · intro h
    induction h with
    | nil => exact .nil
    | @text c s h _ ih =>
      exact .cons (s := [c]) (.left (.cls ((qtextChar_iff _).2 h))) ih
    | @pair c s h _ ih =>
      exact .cons (s := ['\\', c]) (.right (.seq (s := ['\\']) (Re.matches_chr.2 rfl) (.cls ((qpairChar_iff _).2 h)))) ih

theorem labels_iff (s : Str) : Matches (.star (.seq (.plus (.cls domainChar)) (.chr '.'))) s ↔
    ∃ l : List Str, (∀ a ∈ l, a ≠ [] ∧ ∀ c ∈ a, IsLabelChar c) ∧ s = l.flatMap (· ++ ['.']) := by
  constructor
  · intro h
    generalize hr : Re.star (.seq (.plus (.cls domainChar)) (.chr '.')) = r at h
    induction h with
    | nil => exact ⟨[], by simp, rfl⟩
    | cons h1 _ _ ih =>
      cases hr
      obtain ⟨l, hl, rfl⟩ := ih rfl
      obtain ⟨x, y, rfl, hx, hy⟩ := Re.matches_seq.1 h1
      rw [Re.matches_chr] at hy; subst hy
      obtain ⟨hx1, hx2⟩ := Re.matches_plus_cls.1 hx
      refine ⟨x :: l, ?_, by simp⟩
      intro a ha
      rcases List.mem_cons.1 ha with rfl | ha
      · exact ⟨hx1, fun c hc => (domainChar_iff c).1 (hx2 c hc)⟩
      · exact hl a ha
    | _ => simp at hr
  · rintro ⟨l, hl, rfl⟩
    induction l with
    | nil => exact .nil
    | cons a l ih =>
      rw [List.flatMap_cons]
      have ha := hl a (List.mem_cons_self ..)
      refine .cons (.seq (Re.matches_plus_cls.2 ⟨ha.1, fun c hc => (domainChar_iff c).2 (ha.2 c hc)⟩) (Re.matches_chr.2 rfl)) ?_
      exact ih fun b hb => hl b (List.mem_cons_of_mem _ hb)

theorem matches_repTo_cls {p : Char → Bool} {n k : Nat} {s : Str} :
    Matches (.repTo (.cls p) n k) s ↔ n ≤ s.length ∧ s.length ≤ n + k ∧ ∀ c ∈ s, p c = true := by
  induction k with
  | zero =>
    rw [Re.repTo, Re.matches_rep_cls]
    constructor
    · rintro ⟨rfl, h⟩; exact ⟨Nat.le_refl _, Nat.le_refl _, h⟩
    · rintro ⟨h1, h2, h3⟩; exact ⟨by omega, h3⟩
  | succ k ih =>
    rw [Re.repTo, Re.matches_alt, ih, Re.matches_rep_cls]
    constructor
    · rintro (⟨h1, h2, h3⟩ | ⟨h1, h2⟩)
      · exact ⟨h1, by omega, h3⟩
      · exact ⟨by omega, by omega, h2⟩
    · rintro ⟨h1, h2, h3⟩
      by_cases h : s.length = n + k + 1
      · exact .inr ⟨h, h3⟩
      · exact .inl ⟨h1, by omega, h3⟩

theorem localPart_iff (s : Str) : Matches (.alt
      (.seq (.plus (.cls atomChar)) (.star (.seq (.chr '.') (.plus (.cls atomChar)))))
      (.seq (.chr '"') (.seq
        (.star (.alt (.cls qtextChar) (.seq (.chr '\\') (.cls qpairChar))))
        (.chr '"')))) s ↔ IsLocalPart s := by
  rw [Re.matches_alt, matches_joined, IsLocalPart]
  refine or_congr ?_ ?_
  · simp only [Re.matches_plus_cls, atomChar_iff]
  · simp only [Re.matches_seq, Re.matches_chr, quotedBody_iff]
    constructor
    · rintro ⟨_, _, rfl, rfl, b, _, rfl, hb, rfl⟩; exact ⟨b, hb, by simp⟩
    · rintro ⟨b, hb, rfl⟩; exact ⟨['"'], b ++ ['"'], rfl, rfl, b, ['"'], rfl, hb, rfl⟩

theorem domain_iff (s : Str) : Matches (.seq (.plus (.seq (.plus (.cls domainChar)) (.chr '.')))
    (.repTo (.cls asciiAlpha) 2 4)) s ↔ IsDomain s := by
  rw [Re.matches_seq]
  simp only [matches_repTo_cls, asciiAlpha_iff, IsDomain]
  constructor
  · rintro ⟨x, y, rfl, hx, h1, h2, h3⟩
    rw [Re.plus, Re.matches_seq] at hx
    obtain ⟨p, q, rfl, hp, hq⟩ := hx
    have : Matches (.star (.seq (.plus (.cls domainChar)) (.chr '.'))) (p ++ q) := .cons hp hq
    obtain ⟨l, hl, he⟩ := (labels_iff _).1 this
    refine ⟨l, y, ?_, hl, h1, h2, h3, by rw [he]⟩
    rintro rfl
    simp only [List.flatMap_nil, List.append_eq_nil_iff] at he
    obtain ⟨rfl, rfl⟩ := he
    obtain ⟨a, b, hab, _, hb⟩ := Re.matches_seq.1 hp
    rw [Re.matches_chr] at hb; subst hb; simp at hab
  · rintro ⟨l, tld, hne, hl, h1, h2, h3, rfl⟩
    refine ⟨_, tld, rfl, ?_, h1, h2, h3⟩
    cases l with
    | nil => exact absurd rfl hne
    | cons a l =>
      rw [List.flatMap_cons, Re.plus]
      have ha := hl a (List.mem_cons_self ..)
      exact .seq (.seq (Re.matches_plus_cls.2 ⟨ha.1, fun c hc => (domainChar_iff c).2 (ha.2 c hc)⟩) (Re.matches_chr.2 rfl))
        ((labels_iff _).2 ⟨l, fun b hb => hl b (List.mem_cons_of_mem _ hb), rfl⟩)

theorem emailRe_iff (s : Str) : Matches emailRe s ↔ IsEmail s := by
  rw [emailRe, Re.matches_seq, IsEmail]
  simp only [localPart_iff]
  constructor
  · rintro ⟨a, y, rfl, ha, hy⟩
    obtain ⟨p, q, rfl, hp, hq⟩ := Re.matches_seq.1 hy
    rw [Re.matches_chr] at hp; subst hp
    exact ⟨a, q, rfl, ha, (domain_iff q).1 hq⟩
  · rintro ⟨a, b, rfl, ha, hb⟩
    exact ⟨a, '@' :: b, rfl, ha, .seq (s := ['@']) (Re.matches_chr.2 rfl) ((domain_iff b).2 hb)⟩

theorem emailAddressRe_iff (s : Str) : Matches emailAddressRe s ↔ IsEmail s ∨ s = [] := by
  rw [emailAddressRe, Re.matches_opt, emailRe_iff]

theorem emailListRe_iff (s : Str) : Matches emailListRe s ↔
    (∃ l : List Str, l ≠ [] ∧ (∀ x ∈ l, IsEmail x) ∧ s = Joined ',' l) ∨ s = [] := by
  rw [emailListRe, Re.matches_opt, matches_joined]
  simp only [emailRe_iff]

theorem matches_plus_chr {x : Char} {s : Str} : Matches (.plus (.chr x)) s ↔ s ≠ [] ∧ ∀ c ∈ s, c = x := by
  rw [Re.chr, Re.matches_plus_cls]; simp only [beq_iff_eq]

theorem angle_iff (s : Str) : Matches (.seq (.plus (.chr ' ')) (.seq (.chr '<') (.seq emailRe (.chr '>')))) s ↔
    ∃ sp a, IsEmail a ∧ sp ≠ [] ∧ (∀ c ∈ sp, c = ' ') ∧ s = sp ++ '<' :: (a ++ ['>']) := by
  simp only [Re.matches_seq, matches_plus_chr, Re.matches_chr, emailRe_iff]
  constructor
  · rintro ⟨sp, _, rfl, ⟨h1, h2⟩, _, _, rfl, rfl, a, _, rfl, ha, rfl⟩
    exact ⟨sp, a, ha, h1, h2, by simp⟩
  · rintro ⟨sp, a, ha, h1, h2, rfl⟩
    exact ⟨sp, _, rfl, ⟨h1, h2⟩, ['<'], _, rfl, rfl, a, ['>'], rfl, ha, rfl⟩

theorem extendedEmailRe_iff (s : Str) : Matches extendedEmailRe s ↔ IsExtendedEmail s ∨ s = [] := by
  have hq : ∀ (x : Char) (t : Str), Matches (.plus (.cls (· != x))) t ↔ t ≠ [] ∧ ∀ c ∈ t, c ≠ x := by
    intro x t; rw [Re.matches_plus_cls]; simp
  unfold extendedEmailRe
  simp only
  rw [Re.matches_opt, Re.matches_alt, Re.matches_alt, emailRe_iff]
  refine or_congr ?_ Iff.rfl
  have e1 : Matches (.seq (.chr '"') (.seq (.plus (.cls (· != '"'))) (.seq (.chr '"')
        (.seq (.plus (.chr ' ')) (.seq (.chr '<') (.seq emailRe (.chr '>'))))))) s ↔
      ∃ name sp a, IsEmail a ∧ sp ≠ [] ∧ (∀ c ∈ sp, c = ' ') ∧ s = name ++ sp ++ '<' :: (a ++ ['>']) ∧
        ∃ q, q ≠ [] ∧ (∀ c ∈ q, c ≠ '"') ∧ name = '"' :: (q ++ ['"']) := by
    rw [Re.matches_seq]
    constructor
    · rintro ⟨_, y, rfl, h1, h2⟩
      rw [Re.matches_chr] at h1; subst h1
      obtain ⟨q, z, rfl, h3, h4⟩ := Re.matches_seq.1 h2
      obtain ⟨_, z', rfl, h5, h6⟩ := Re.matches_seq.1 h4
      rw [Re.matches_chr] at h5; subst h5
      obtain ⟨sp, a, ha, hsp, hsp', rfl⟩ := (angle_iff _).1 h6
      obtain ⟨h7, h8⟩ := (hq _ _).1 h3
      exact ⟨_, sp, a, ha, hsp, hsp', by simp, q, h7, h8, rfl⟩
    · rintro ⟨_, sp, a, ha, hsp, hsp', rfl, q, h7, h8, rfl⟩
      refine ⟨['"'], q ++ (['"'] ++ (sp ++ '<' :: (a ++ ['>']))), by simp, Re.matches_chr.2 rfl, ?_⟩
      exact .seq ((hq _ _).2 ⟨h7, h8⟩) (.seq (Re.matches_chr.2 rfl) ((angle_iff _).2 ⟨sp, a, ha, hsp, hsp', rfl⟩))
  have e2 : Matches (.seq (.plus (.cls (· != '<')))
        (.seq (.plus (.chr ' ')) (.seq (.chr '<') (.seq emailRe (.chr '>'))))) s ↔
      ∃ name sp a, IsEmail a ∧ sp ≠ [] ∧ (∀ c ∈ sp, c = ' ') ∧ s = name ++ sp ++ '<' :: (a ++ ['>']) ∧
        name ≠ [] ∧ ∀ c ∈ name, c ≠ '<' := by
    rw [Re.matches_seq]
    constructor
    · rintro ⟨x, y, rfl, h1, h2⟩
      obtain ⟨sp, a, ha, hsp, hsp', rfl⟩ := (angle_iff _).1 h2
      obtain ⟨h7, h8⟩ := (hq _ _).1 h1
      exact ⟨x, sp, a, ha, hsp, hsp', by simp, h7, h8⟩
    · rintro ⟨x, sp, a, ha, hsp, hsp', rfl, h7, h8⟩
      exact ⟨x, sp ++ '<' :: (a ++ ['>']), by simp, (hq _ _).2 ⟨h7, h8⟩, (angle_iff _).2 ⟨sp, a, ha, hsp, hsp', rfl⟩⟩
  rw [e1, e2, IsExtendedEmail]
  constructor
  · rintro (⟨n, sp, a, h1, h2, h3, h4, h5⟩ | ⟨n, sp, a, h1, h2, h3, h4, h5⟩ | h)
    · exact .inr ⟨n, sp, a, h1, h2, h3, h4, .inl h5⟩
    · exact .inr ⟨n, sp, a, h1, h2, h3, h4, .inr h5⟩
    · exact .inl h
  · rintro (h | ⟨n, sp, a, h1, h2, h3, h4, h5 | h5⟩)
    · exact .inr (.inr h)
    · exact .inl ⟨n, sp, a, h1, h2, h3, h4, h5⟩
    · exact .inr (.inl ⟨n, sp, a, h1, h2, h3, h4, h5⟩)

/-! ### Normalisation -/

theorem listSep_iff (u : Chars) (c : Char) : (isSpace u c || c == ',' || c == ';' || c == ':') = true ↔ listSep u c := by
  simp [listSep, or_assoc]

theorem collapseSeps_true_run {u : Chars} {r s : Str} (hr : ∀ c ∈ r, listSep u c) :
    collapseSeps u true (r ++ s) = collapseSeps u true s := by
  induction r with
  | nil => rfl
  | cons c r ih =>
    rw [List.cons_append, collapseSeps, if_pos ((listSep_iff u c).2 (hr c (List.mem_cons_self ..))), if_pos rfl]
    exact ih fun x hx => hr x (List.mem_cons_of_mem _ hx)

theorem collapseSeps_flag {u : Chars} {s : Str} (h : ∀ c, s.head? = some c → ¬ listSep u c) (b b' : Bool) :
    collapseSeps u b s = collapseSeps u b' s := by
  cases s with
  | nil => cases b <;> cases b' <;> rfl
  | cons c s =>
    have : ¬ (isSpace u c || c == ',' || c == ';' || c == ':') = true := fun hc => h c rfl ((listSep_iff u c).1 hc)
    rw [collapseSeps, collapseSeps, if_neg this, if_neg this]

theorem collapseSeps_of {u : Chars} {s t : Str} (h : Collapsed (listSep u) s t) : collapseSeps u false s = t := by
  induction h with
  | nil => rfl
  | keep h _ ih => rw [collapseSeps, if_neg (fun hc => h ((listSep_iff u _).1 hc)), ih]
  | @run r s t h1 h2 h3 _ ih =>
    cases r with
    | nil => exact absurd rfl h1
    | cons c r =>
      rw [List.cons_append, collapseSeps, if_pos ((listSep_iff u c).2 (h2 c (List.mem_cons_self ..)))]
      simp only [Bool.false_eq_true, if_false]
      rw [collapseSeps_true_run fun x hx => h2 x (List.mem_cons_of_mem _ hx), collapseSeps_flag h3 true false, ih]

theorem collapsed_spec (u : Chars) (s : Str) : Collapsed (listSep u) s (collapseSeps u false s) := by
  have key : ∀ n, ∀ s : Str, s.length ≤ n → ∃ t, Collapsed (listSep u) s t := by
    intro n
    induction n with
    | zero =>
      intro s hs
      have : s = [] := List.length_eq_zero_iff.1 (by omega)
      subst this; exact ⟨[], .nil⟩
    | succ n ih =>
      intro s hs
      cases s with
      | nil => exact ⟨[], .nil⟩
      | cons c s =>
        cases hc : (isSpace u c || c == ',' || c == ';' || c == ':')
        · obtain ⟨t, ht⟩ := ih s (by simp at hs; omega)
          exact ⟨c :: t, .keep (fun h => by rw [← listSep_iff, hc] at h; simp at h) ht⟩
        · let p : Char → Bool := fun c => isSpace u c || c == ',' || c == ';' || c == ':'
          have hlen : (s.dropWhile p).length ≤ s.length := (List.dropWhile_sublist p).length_le
          obtain ⟨t, ht⟩ := ih (s.dropWhile p) (by simp at hs; omega)
          refine ⟨',' :: t, ?_⟩
          have hs' : c :: s = (c :: s.takeWhile p) ++ s.dropWhile p := by
            rw [List.cons_append, List.takeWhile_append_dropWhile]
          rw [hs']
          refine .run (by simp) ?_ ?_ ht
          · intro x hx
            rcases List.mem_cons.1 hx with rfl | hx
            · exact (listSep_iff u _).1 hc
            · exact (listSep_iff u _).1 (takeWhile_all (p := p) x hx)
          · intro x hx hl
            have := head_dropWhile hx
            rw [← listSep_iff] at hl
            simp only [p] at this
            rw [this] at hl; simp at hl
  obtain ⟨t, ht⟩ := key s.length s (Nat.le_refl _)
  rw [collapseSeps_of ht]; exact ht

theorem preprocess_email {env : Env} {f : Field} {c : Common} {mn mx : Option Nat} {mult ext : Bool} {v w : Val}
    {anc : List Str} (hpre : c.pre = none) :
    preprocess env f c (.email mn mx mult ext) v anc = .ok w ↔
      (ext = true ∧ w = v) ∨ ∃ s t, v = .str s ∧ w = .str t ∧ ext = false ∧ EmailForm env.u mult ext s t := by
  unfold preprocess
  rw [hpre]
  simp only
  cases ext with
  | true => simp [eq_comm]
  | false =>
    have hs : ∀ s r, stripBy emailSep s = r ↔ Stripped IsEmailSep s r := by
      intro s r
      rw [← stripBy_eq_iff]
      have : emailSep = IsEmailSep := funext emailSep_eq
      rw [this]
    cases v with
    | str s =>
      simp only [Bool.false_eq_true, if_false, false_and, false_or, Except.ok.injEq, Val.str.injEq, true_and, EmailForm]
      cases mult with
      | false =>
        simp only [Bool.false_eq_true, if_false]
        constructor
        · rintro rfl; exact ⟨s, _, rfl, rfl, _, (hs _ _).1 rfl, rfl⟩
        · rintro ⟨_, t, rfl, rfl, r, hr, rfl⟩; rw [(hs _ _).2 hr]
      | true =>
        simp only [if_true]
        constructor
        · rintro rfl; exact ⟨s, _, rfl, rfl, _, (hs _ _).1 rfl, collapsed_spec _ _⟩
        · rintro ⟨_, t, rfl, rfl, r, hr, ht⟩; rw [(hs _ _).2 hr, collapseSeps_of ht]
    | _ => simp

theorem emailMatches_iff (mult ext : Bool) (s : Str) : emailMatches mult ext s = true ↔
    ∃ t, (s = t ∨ s = t ++ ['\n']) ∧ EmailText mult ext t := by
  have key : ∀ r : Re, (∀ t, Matches r t ↔ EmailText mult ext t) → (r.matchDollar s = true ↔
      ∃ t, (s = t ∨ s = t ++ ['\n']) ∧ EmailText mult ext t) := by
    intro r hr
    rw [Re.matchDollar_iff]
    simp only [hr]
    constructor
    · rintro (h | ⟨t, rfl, h⟩)
      · exact ⟨s, .inl rfl, h⟩
      · exact ⟨t, .inr rfl, h⟩
    · rintro ⟨t, rfl | rfl, h⟩
      · exact .inl h
      · exact .inr ⟨t, rfl, h⟩
  unfold emailMatches
  cases mult with
  | true => exact key _ fun t => by rw [emailListRe_iff, or_comm]; simp [EmailText]
  | false =>
    cases ext with
    | true => exact key _ fun t => by rw [extendedEmailRe_iff, or_comm]; simp [EmailText]
    | false => exact key _ fun t => by rw [emailAddressRe_iff, or_comm]; simp [EmailText]

theorem validate_email {env : Env} {f : Field} {mn mx : Option Nat} {mult ext : Bool} {v w : Val} {anc : List Str} :
    validateLeaf env f (.email mn mx mult ext) v anc = .ok w ↔
      w = v ∧ ∃ s, v = .str s ∧ (∀ m, mn = some m → m ≤ s.length) ∧ (∀ m, mx = some m → s.length ≤ m) ∧
        ∃ t, (s = t ∨ s = t ++ ['\n']) ∧ EmailText mult ext t := by
  cases v with
  | str s =>
    simp only [validateLeaf, validateText_ok, emailMatches_iff, Val.str.injEq, exists_eq_left']
    constructor
    · rintro ⟨h1, h2, h3, rfl⟩; exact ⟨rfl, h1, h2, h3⟩
    · rintro ⟨rfl, h1, h2, h3⟩; exact ⟨h1, h2, h3, rfl⟩
  | _ => simp [validateLeaf]

/-- C54. In every phase and mode, an Email field without user preprocessor normalises the text
(`EmailForm`), and accepts it iff the normal form is within the length bounds and is empty, an address, an
extended address or a comma separated list of addresses, according to the field's flags — again up to one
trailing newline; the normal form is returned. -/
theorem C54_iff (env : Env) (n : Nat) (c : Common) (mn mx : Option Nat) (mult ext : Bool) (hpre : c.pre = none)
    (v w : Val) (hv : v ≠ .none) (ph : Phase) (ser : Bool) (anc : List Str) (ha : anc ≠ []) :
    process env (n + 1) (.leaf c (.email mn mx mult ext)) v ph ser anc = .ok w ↔
      ConstOk c w ∧ ∃ s t, v = .str s ∧ w = .str t ∧ EmailForm env.u mult ext s t ∧
        (∀ m, mn = some m → m ≤ t.length) ∧ (∀ m, mx = some m → t.length ≤ m) ∧
        ∃ a, (t = a ∨ t = a ++ ['\n']) ∧ EmailText mult ext a := by
  have hnn : NotNull (.email mn mx mult ext) v := NotNull.mk' hv (by simp)
  have main : process env (n + 1) (.leaf c (.email mn mx mult ext)) v ph ser anc =
      preprocess env (.leaf c (.email mn mx mult ext)) c (.email mn mx mult ext) v anc >>= fun v =>
      checkConst (.leaf c (.email mn mx mult ext)) c v anc >>= fun v =>
      validateLeaf env (.leaf c (.email mn mx mult ext)) (.email mn mx mult ext) v anc := by
    show processLeaf env c (.email mn mx mult ext) v ph ser anc = _
    unfold processLeaf
    have hu : unserializeLeaf env (.leaf c (.email mn mx mult ext)) (.email mn mx mult ext) v anc = .ok v := rfl
    simp only [ancOr_ne ha, isNull_notNull hnn, except_bind_ok, Bool.false_eq_true, if_false, hu, ite_self]
    cases preprocess env (.leaf c (.email mn mx mult ext)) c (.email mn mx mult ext) v anc with
    | error e => rfl
    | ok v2 =>
      simp only [except_bind_ok, checkConst]
      split
      · rfl
      · simp only [except_bind_ok]
        cases validateLeaf env (.leaf c (.email mn mx mult ext)) (.email mn mx mult ext) v2 anc with
        | error e => rfl
        | ok v3 =>
          simp only [except_bind_ok, serializeLeaf, except_pure]
          split <;> rfl
  rw [main]
  simp only [except_bind_eq_ok, preprocess_email hpre, checkConst_eq_ok, validate_email]
  constructor
  · rintro ⟨a, h1, b, ⟨rfl, hc⟩, rfl, t, rfl, hmn, hmx, ht⟩
    refine ⟨hc, ?_⟩
    rcases h1 with ⟨rfl, rfl⟩ | ⟨s, t', rfl, he, rfl, hf⟩
    · exact ⟨t, t, rfl, rfl, by simp [EmailForm], hmn, hmx, ht⟩
    · cases he; exact ⟨s, t, rfl, rfl, hf, hmn, hmx, ht⟩
  · rintro ⟨hc, s, t, rfl, rfl, hf, hmn, hmx, ht⟩
    refine ⟨.str t, ?_, .str t, ⟨rfl, hc⟩, rfl, t, rfl, hmn, hmx, ht⟩
    cases ext with
    | true => left; simp [EmailForm] at hf; exact ⟨rfl, by rw [hf]⟩
    | false => right; exact ⟨s, t, rfl, rfl, rfl, hf⟩

example : process Ex.env 1 (.leaf {} (.email none none true false)) (.str c!" A@b.Com; c.d@e.org,") .inbound true [c!"m"] =
    .ok (.str c!"a@b.com,c.d@e.org") := rfl
example : IsEmail c!"c.d@e.org" :=
  ⟨c!"c.d", c!"e.org", rfl, .inl ⟨[c!"c", c!"d"], by simp, by simp [IsAtomChar], rfl⟩,
    ⟨[c!"e"], c!"org", by simp, by simp [IsLabelChar], by decide, by decide, by simp [IsLetter], rfl⟩⟩

/-- C54. The empty text is accepted as an email address (a field that must hold an address needs
`nonempty`). -/
theorem C54_empty (env : Env) (n : Nat) (c : Common) (mx : Option Nat) (mult ext : Bool) (hpre : c.pre = none)
    (hc : c.constant = .none) (ph : Phase) (ser : Bool) (anc : List Str) (ha : anc ≠ []) :
    process env (n + 1) (.leaf c (.email none mx mult ext)) (.str []) ph ser anc = .ok (.str []) := by
  rw [C54_iff env n c none mx mult ext hpre _ _ (by simp) ph ser anc ha]
  refine ⟨.inl hc, [], [], rfl, rfl, ?_, by simp, by simp, [], .inl rfl, .inl rfl⟩
  unfold EmailForm
  cases ext
  · simp only [Bool.false_eq_true, if_false]
    refine ⟨[], ⟨[], [], rfl, by simp, by simp, by simp, by simp⟩, ?_⟩
    cases mult
    · rfl
    · exact .nil
  · rfl

/-- C54. A user supplied pattern, `strip` or `errors` argument never reaches the field, and asking for both
`multiple` and `extended` is a ValueError. -/
theorem C54_init (c : Common) (mult ext : Bool) (mn mx : Option Nat) :
    initEmail c mult ext (mn.map Int.ofNat) (mx.map Int.ofNat) false =
      if mult = true ∧ ext = true then .error .valueError else .ok (.leaf c (.email mn mx mult ext)) := by
  cases mult <;> cases ext <;> cases mn <;> cases mx <;> simp [initEmail, initText, lengthArg]

end Scheme
