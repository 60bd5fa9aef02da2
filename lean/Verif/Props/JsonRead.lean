import Verif.Spec.JsonText
import Verif.Props.Json
import Verif.Props.UrlQuery
import Verif.Props.Integer

/-! C56: the JSON documents that are read, and the values they are read as. -/

namespace Scheme.Json
open Scheme

/-! ### texts -/

theorem jEscape_iff (e c : Char) : JEscape e c ↔ jsonUnescape e = some c := by
  constructor
  · rintro (_ | _ | _ | _) <;> rfl
  · intro h
    unfold jsonUnescape at h
    split at h
    · next h' => subst h'; cases h; exact .quote
    split at h
    · next h' => subst h'; cases h; exact .backslash
    split at h
    · next h' => subst h'; cases h; exact .slash
    split at h
    · next h' => subst h'; cases h; exact .backspace
    split at h
    · next h' => subst h'; cases h; exact .formfeed
    split at h
    · next h' => subst h'; cases h; exact .newline
    split at h
    · next h' => subst h'; cases h; exact .return
    split at h
    · next h' => subst h'; cases h; exact .tab
    · cases h

theorem jHex_iff (a b c d : Char) (n : Nat) : JHex [a, b, c, d] n ↔ jsonHexVal a b c d = some n := by
  constructor
  · intro h
    cases h with
    | mk h1 h2 h3 h4 =>
      simp [jsonHexVal, (hexVal_iff _ _).2 h1, (hexVal_iff _ _).2 h2, (hexVal_iff _ _).2 h3, (hexVal_iff _ _).2 h4]
  · intro h
    simp only [jsonHexVal, Option.bind_eq_bind, Option.bind_eq_some_iff, Option.pure_def, Option.some.injEq] at h
    obtain ⟨w, h1, x, h2, y, h3, z, h4, rfl⟩ := h
    exact .mk ((hexVal_iff _ _).1 h1) ((hexVal_iff _ _).1 h2) ((hexVal_iff _ _).1 h3) ((hexVal_iff _ _).1 h4)

theorem jsonString_escape {e c : Char} (h : JEscape e c) (r : Str) :
    jsonString ('\\' :: e :: r) = (jsonString r).map fun p => (c :: p.1, p.2) := by
  cases h <;> simp [jsonString, jsonUnescape]

/-- What a body stands for is read. -/
theorem jBody_read {s t : Str} (h : JBody s t) (r : Str) : jsonString (t ++ '"' :: r) = .ok (s, r) := by
  induction h with
  | nil => simp [jsonString]
  | self h1 h2 h3 _ ih => rw [List.cons_append, jsonString_plain h1 h2 h3, ih]; rfl
  | escape h _ ih => rw [List.cons_append, List.cons_append, jsonString_escape h, ih]; rfl
  | hex h h' _ ih =>
    cases h with
    | mk h1 h2 h3 h4 =>
      simp only [List.cons_append, List.nil_append]
      rw [jsonString, (jHex_iff _ _ _ _ _).1 (.mk h1 h2 h3 h4)]
      simp only
      rw [if_neg (by omega), if_neg (by omega), ih]
      rfl
  | pair g h hn hm _ ih =>
    cases g with
    | mk g1 g2 g3 g4 =>
    cases h with
    | mk h1 h2 h3 h4 =>
      simp only [List.cons_append, List.nil_append]
      rw [jsonString, (jHex_iff _ _ _ _ _).1 (.mk g1 g2 g3 g4)]
      simp only
      rw [if_pos (by omega), (jHex_iff _ _ _ _ _).1 (.mk h1 h2 h3 h4)]
      simp only
      rw [if_pos (by omega), ih]
      rfl

theorem except_map_ok {α β : Type} {x : Except Exn α} {f : α → β} {y : β} (h : x.map f = .ok y) : ∃ a, x = .ok a ∧ y = f a := by
  cases x with
  | error e => cases h
  | ok a => exact ⟨a, rfl, by cases h; rfl⟩

/-- What is read is a body. -/
theorem jBody_of {u s r : Str} (h : jsonString u = .ok (s, r)) : ∃ t, u = t ++ '"' :: r ∧ JBody s t := by
  fun_induction jsonString u generalizing s r with
  | case1 => cases h
  | case2 r' => cases h; exact ⟨[], rfl, .nil⟩
  | case3 => cases h
  | case4 => cases h
  | case5 a b c d n hn hb a' b' c' d' r' m hm hb' ih =>
    obtain ⟨⟨x, y⟩, h1, h2⟩ := except_map_ok h
    cases h2
    obtain ⟨t, rfl, ht⟩ := ih h1
    exact ⟨'\\' :: 'u' :: ([a, b, c, d] ++ '\\' :: 'u' :: ([a', b', c', d'] ++ t)), by simp,
      .pair ((jHex_iff _ _ _ _ _).2 hn) ((jHex_iff _ _ _ _ _).2 hm) (by omega) (by omega) ht⟩
  | case6 => cases h
  | case7 => cases h
  | case8 => cases h
  | case9 a b c d r' n hn hb hb' ih =>
    obtain ⟨⟨x, y⟩, h1, h2⟩ := except_map_ok h
    cases h2
    obtain ⟨t, rfl, ht⟩ := ih h1
    exact ⟨'\\' :: 'u' :: ([a, b, c, d] ++ t), by simp, .hex ((jHex_iff _ _ _ _ _).2 hn) (by omega) ht⟩
  | case10 e r' _ c hc ih =>
    obtain ⟨⟨x, y⟩, h1, h2⟩ := except_map_ok h
    cases h2
    obtain ⟨t, rfl, ht⟩ := ih h1
    exact ⟨'\\' :: e :: t, rfl, .escape ((jEscape_iff _ _).2 hc) ht⟩
  | case11 => cases h
  | case12 => cases h
  | case13 c r' hq _ _ hc ih =>
    obtain ⟨⟨x, y⟩, h1, h2⟩ := except_map_ok h
    cases h2
    obtain ⟨t, rfl, ht⟩ := ih h1
    exact ⟨c :: t, rfl, .self hq (fun h => hc (.inl h)) (by have := fun h => hc (.inr h); omega) ht⟩

/-! ### numbers -/

theorem jsonSign_of {s sign r : Str} (h : jsonSign s = (sign, r)) : s = sign ++ r ∧ (sign = [] ∨ sign = c!"-") := by
  unfold jsonSign at h
  split at h <;> cases h
  · exact ⟨rfl, .inr rfl⟩
  · exact ⟨rfl, .inl rfl⟩

theorem takeWhile_digits {c : Char} (hc : asciiDigit c = true) (r : Str) : Digits ((c :: r).takeWhile asciiDigit) := by
  refine ⟨by simp [hc], ?_⟩
  intro x hx
  exact (asciiDigit_iff x).1 (List.all_eq_true.1 (List.all_takeWhile (l := c :: r) (p := asciiDigit)) x hx)

theorem jsonDigits_of {s ds r : Str} (h : jsonDigits s = some (ds, r)) :
    s = ds ++ r ∧ (ds = c!"0" ∨ (Digits ds ∧ ds.head? ≠ some '0')) := by
  unfold jsonDigits at h
  split at h
  · cases h
  · next c r' =>
    split at h
    · next hc => cases h; subst hc; exact ⟨rfl, .inl rfl⟩
    · next hc =>
      split at h
      · next hd =>
        cases h
        refine ⟨List.takeWhile_append_dropWhile.symm, .inr ⟨takeWhile_digits hd r', ?_⟩⟩
        simpa [hd] using hc
      · cases h

theorem jsonFrac_of {s f r : Str} (h : jsonFrac s = (f, r)) : s = f ++ r ∧ (f = [] ∨ ∃ ds, Digits ds ∧ f = '.' :: ds) := by
  unfold jsonFrac at h
  split at h
  · next d r' =>
    split at h
    · next hd =>
      cases h
      exact ⟨by rw [List.cons_append, List.takeWhile_append_dropWhile], .inr ⟨_, takeWhile_digits hd r', rfl⟩⟩
    · cases h; exact ⟨rfl, .inl rfl⟩
  · cases h; exact ⟨rfl, .inl rfl⟩

theorem jsonExpDigits_of {pre s e r : Str} (h : jsonExpDigits pre s = (e, r)) :
    pre ++ s = e ++ r ∧ (e = [] ∨ ∃ ds, Digits ds ∧ e = pre ++ ds) := by
  unfold jsonExpDigits at h
  split at h
  · next d r' =>
    split at h
    · next hd =>
      cases h
      exact ⟨by rw [List.append_assoc, List.takeWhile_append_dropWhile], .inr ⟨_, takeWhile_digits hd r', rfl⟩⟩
    · cases h; exact ⟨rfl, .inl rfl⟩
  · cases h; exact ⟨by simp, .inl rfl⟩

theorem jsonExp_of {s x r : Str} (h : jsonExp s = (x, r)) : s = x ++ r ∧
    (x = [] ∨ ∃ e g ds, (e = 'e' ∨ e = 'E') ∧ (g = [] ∨ g = c!"+" ∨ g = c!"-") ∧ Digits ds ∧ x = e :: (g ++ ds)) := by
  unfold jsonExp at h
  split at h
  · next e r' =>
    split at h
    · next he =>
      obtain ⟨h1, h2⟩ := jsonExpDigits_of h
      refine ⟨h1, h2.imp id ?_⟩
      rintro ⟨ds, hd, rfl⟩
      exact ⟨e, c!"+", ds, he, by simp, hd, rfl⟩
    · cases h; exact ⟨rfl, .inl rfl⟩
  · next e r' =>
    split at h
    · next he =>
      obtain ⟨h1, h2⟩ := jsonExpDigits_of h
      refine ⟨h1, h2.imp id ?_⟩
      rintro ⟨ds, hd, rfl⟩
      exact ⟨e, c!"-", ds, he, by simp, hd, rfl⟩
    · cases h; exact ⟨rfl, .inl rfl⟩
  · next e r' _ _ =>
    split at h
    · next he =>
      obtain ⟨h1, h2⟩ := jsonExpDigits_of h
      refine ⟨h1, h2.imp id ?_⟩
      rintro ⟨ds, hd, rfl⟩
      exact ⟨e, [], ds, he, by simp, hd, rfl⟩
    · cases h; exact ⟨rfl, .inl rfl⟩
  · cases h; exact ⟨rfl, .inl rfl⟩

theorem digit_facts (u : Chars) : ∀ c ∈ c!"0123456789", digitVal u c = some (c.toNat - 48) ∧ isSpace u c = false := by
  intro c hc
  have : ∀ c ∈ c!"0123456789", isAscii c = true ∧ asciiDigit c = true ∧ asciiSpace c = false := by decide
  obtain ⟨h1, h2, h3⟩ := this c hc
  simp [digitVal, isSpace, h1, h2, h3]

theorem digitText_digits (u : Chars) {ds : Str} (h : Digits ds) : DigitText u ds (ds.map fun c => c.toNat - 48) := by
  obtain ⟨h1, h2⟩ := h
  induction ds with
  | nil => exact absurd rfl h1
  | cons c ds ih =>
    have hc := (digit_facts u c (h2 c (by simp))).1
    by_cases hd : ds = []
    · subst hd; exact .one (.of hc)
    · exact .cons (.of hc) (ih hd (fun x hx => h2 x (by simp [hx])))

theorem parseInt_digits (u : Chars) {sign ds : Str} (hs : sign = [] ∨ sign = c!"-") (h : Digits ds) :
    parseInt u (sign ++ ds) = some (if sign = [] then (digitsValue ds : Int) else -(digitsValue ds : Int)) := by
  rw [parseInt_iff]
  have hsp : ∀ c ∈ sign ++ ds, isSpace u c = false := by
    intro c hc
    rcases List.mem_append.1 hc with hc | hc
    · rcases hs with rfl | rfl
      · cases hc
      · simp only [List.mem_singleton] at hc; subst hc; rfl
    · exact (digit_facts u c (h.2 c hc)).2
  refine ⟨[], [], sign, ds, _, by simp, by simp, by simp, ?_, ?_, digitText_digits u h, ?_⟩
  · intro c hc; exact hsp c (List.mem_of_mem_head? hc)
  · intro c hc; exact hsp c (List.mem_of_mem_getLast? hc)
  · rw [List.foldl_map]
    rcases hs with rfl | rfl
    · exact .inl ⟨.inl rfl, rfl⟩
    · exact .inr ⟨rfl, rfl⟩

theorem digits_of_whole {ds : Str} (h : ds = c!"0" ∨ (Digits ds ∧ ds.head? ≠ some '0')) : Digits ds := by
  rcases h with rfl | h
  · exact ⟨by simp, by simp⟩
  · exact h.1

theorem jsonNumber_of {env : Env} {s r : Str} {v : Val} (h : jsonNumber env s = .ok (v, r)) : ∃ t, s = t ++ r ∧ JText env t v := by
  unfold jsonNumber at h
  obtain ⟨sign, r1, h1⟩ : ∃ sign r1, jsonSign s = (sign, r1) := ⟨_, _, rfl⟩
  obtain ⟨rfl, hs⟩ := jsonSign_of h1
  rw [h1] at h
  simp only at h
  split at h
  · cases h
  next ds r2 h2 =>
  obtain ⟨rfl, hd⟩ := jsonDigits_of h2
  obtain ⟨f, r3, h3⟩ : ∃ f r3, jsonFrac r2 = (f, r3) := ⟨_, _, rfl⟩
  obtain ⟨rfl, hf⟩ := jsonFrac_of h3
  obtain ⟨x, r4, h4⟩ : ∃ x r4, jsonExp r3 = (x, r4) := ⟨_, _, rfl⟩
  obtain ⟨rfl, hx⟩ := jsonExp_of h4
  rw [h3] at h
  simp only at h
  rw [h4] at h
  simp only at h
  split at h
  · next he =>
    simp only [Bool.and_eq_true, List.isEmpty_iff] at he
    obtain ⟨rfl, rfl⟩ := he
    rw [parseInt_digits env.u hs (digits_of_whole hd)] at h
    simp only [Except.ok.injEq, Prod.mk.injEq] at h
    obtain ⟨rfl, rfl⟩ := h
    refine ⟨sign ++ ds, by simp, ?_⟩
    rcases hs with rfl | rfl
    · exact .natural hd
    · exact .negative hd
  · next he =>
    split at h
    · next y hy =>
      cases h
      refine ⟨sign ++ ds ++ f ++ x, by simp, .real ⟨sign, ds, f, x, rfl, hs, hd, hf, hx, ?_⟩ hy⟩
      by_cases hfe : f = []
      · right; rintro rfl; exact he (by simp [hfe])
      · exact .inl hfe
    · cases h

theorem dropPrefix_of {p s r : Str} (h : dropPrefix? p s = some r) : s = p ++ r := by
  induction p generalizing s with
  | nil => simp [dropPrefix?] at h; simp [h]
  | cons a p ih =>
    cases s with
    | nil => simp [dropPrefix?] at h
    | cons b s =>
      simp only [dropPrefix?] at h
      split at h
      · next hab => subst hab; rw [ih h]; rfl
      · cases h

theorem jsonAtom_of {env : Env} {s r : Str} {v : Val} (h : jsonAtom env s = .ok (v, r)) : ∃ t, s = t ++ r ∧ JText env t v := by
  unfold jsonAtom at h
  split at h
  · next h' => cases h; exact ⟨_, dropPrefix_of h', .null⟩
  split at h
  · next h' => cases h; exact ⟨_, dropPrefix_of h', .true⟩
  split at h
  · next h' => cases h; exact ⟨_, dropPrefix_of h', .false⟩
  split at h
  · next h' => cases h; exact ⟨_, dropPrefix_of h', .nan⟩
  split at h
  · next h' => cases h; exact ⟨_, dropPrefix_of h', .infinity⟩
  split at h
  · next h' => cases h; exact ⟨_, dropPrefix_of h', .minusInfinity⟩
  · exact jsonNumber_of h

/-! ### dicts -/

theorem mem_firsts (k : Str) (l : List Str) : k ∈ firsts l ↔ k ∈ l := by
  induction l with
  | nil => simp [firsts]
  | cons a l ih =>
    simp only [firsts, List.mem_cons, List.mem_filter, ih, decide_eq_true_eq]
    constructor
    · rintro (h | ⟨h, -⟩)
      · exact .inl h
      · exact .inr h
    · intro h
      by_cases hk : k = a
      · exact .inl hk
      · exact .inr ⟨h.resolve_left hk, hk⟩

theorem firsts_nodup (l : List Str) : (firsts l).Nodup := by
  induction l with
  | nil => simp [firsts]
  | cons a l ih => exact List.nodup_cons.2 ⟨by simp, ih.filter _⟩

theorem firsts_snoc (l : List Str) (k : Str) : firsts (l ++ [k]) = if k ∈ l then firsts l else firsts l ++ [k] := by
  induction l with
  | nil => simp [firsts]
  | cons a l ih =>
    simp only [List.cons_append, firsts, ih]
    by_cases hk : k = a
    · subst hk
      simp only [List.mem_cons, true_or, if_true]
      by_cases h : k ∈ l <;> simp [h]
    · by_cases h : k ∈ l <;> simp [h, hk]

theorem lastValue_snoc (ps : List (Str × Val)) (k x : Str) (v : Val) :
    lastValue x (ps ++ [(k, v)]) = if k = x then some v else lastValue x ps := by
  induction ps with
  | nil => simp [lastValue]
  | cons p ps ih =>
    simp only [List.cons_append, lastValue, ih]
    split <;> simp

theorem dictSet_keyed {ks : List Str} (hd : ks.Nodup) (f : Str → Val) (k : Str) (v : Val) :
    dictSet (ks.map fun x => (Val.str x, f x)) (.str k) v =
      if k ∈ ks then ks.map fun x => (Val.str x, if k = x then v else f x) else (ks.map fun x => (Val.str x, f x)) ++ [(.str k, v)] := by
  induction ks with
  | nil => simp [dictSet]
  | cons a ks ih =>
    obtain ⟨h1, h2⟩ := List.nodup_cons.1 hd
    simp only [List.map_cons, dictSet, pyEq_str_str, decide_eq_true_eq]
    by_cases hk : k = a
    · subst hk
      simp only [if_true, List.mem_cons, true_or, List.cons.injEq, true_and]
      apply List.map_congr_left
      intro x hx
      rw [if_neg (by rintro rfl; exact h1 hx)]
    · rw [if_neg (by simpa using hk), ih h2]
      by_cases h : k ∈ ks <;> simp [h, hk]

theorem dictOf_collected (ps : List (Str × Val)) : Val.dict (dictOf (ps.map fun p => (Val.str p.1, p.2))) = collected ps := by
  suffices h : ∀ qs : List (Str × Val), dictOf ((qs.reverse).map fun p => (Val.str p.1, p.2)) =
      (firsts (qs.reverse.map (·.1))).map fun k => (.str k, (lastValue k qs.reverse).getD .none) by
    have := h ps.reverse
    rw [List.reverse_reverse] at this
    rw [this, collected]
  intro qs
  induction qs with
  | nil => rfl
  | cons p qs ih =>
    obtain ⟨k, v⟩ := p
    have e : dictOf ((List.reverse ((k, v) :: qs)).map fun p => (Val.str p.1, p.2)) =
        dictSet (dictOf (qs.reverse.map fun p => (Val.str p.1, p.2))) (.str k) v := by
      simp [dictOf, List.foldl_append]
    rw [e, ih, dictSet_keyed (firsts_nodup _)]
    simp only [List.reverse_cons, List.map_append, List.map_cons, List.map_nil, firsts_snoc, lastValue_snoc, mem_firsts]
    split
    · apply List.map_congr_left
      intro x hx
      split <;> simp
    · next hk =>
      rw [List.map_append]
      simp only [List.map_cons, List.map_nil, if_true, Option.getD_some]
      congr 1
      apply List.map_congr_left
      intro x hx
      rw [if_neg]
      rintro rfl
      exact hk ((mem_firsts _ _).1 hx)

/-! ### values -/

theorem jsonSpace_iff (c : Char) : jsonSpace c = true ↔ c = ' ' ∨ c = '\t' ∨ c = '\n' ∨ c = '\r' := by
  simp [jsonSpace, or_assoc]

theorem jsonWs_of (s : Str) : ∃ w, JSpace w ∧ s = w ++ jsonWs s ∧ ∀ c, (jsonWs s).head? = some c → jsonSpace c = false := by
  refine ⟨s.takeWhile jsonSpace, ?_, List.takeWhile_append_dropWhile.symm, ?_⟩
  · intro c hc
    exact (jsonSpace_iff c).1 (List.all_eq_true.1 (List.all_takeWhile (l := s) (p := jsonSpace)) c hc)
  · intro c hc
    have := List.head?_dropWhile_not jsonSpace s
    rw [show s.dropWhile jsonSpace = jsonWs s from rfl, hc] at this
    simpa using this

theorem jsonWs_space {w s : Str} (h : JSpace w) (hs : ∀ c, s.head? = some c → jsonSpace c = false) : jsonWs (w ++ s) = s := by
  have := takeWhile_stop (p := jsonSpace) (a := w) (r := s) (fun c hc => (jsonSpace_iff c).2 (h c hc)) hs
  exact this.2

/-- What is read stands for the value it is read as. -/
theorem jsonValue_of (env : Env) (n : Nat) :
    (∀ s v r, jsonValue env n s = .ok (v, r) → ∃ t, s = t ++ r ∧ JText env t v) ∧
    (∀ s l r, jsonItems env n s = .ok (l, r) → ∃ t, s = t ++ ']' :: r ∧ JItems env t l) ∧
    (∀ s l r, jsonPairs env n s = .ok (l, r) → ∃ t ps, s = t ++ '}' :: r ∧ JPairs env t ps ∧ l = ps.map fun p => (Val.str p.1, p.2)) := by
  induction n with
  | zero => refine ⟨?_, ?_, ?_⟩ <;> · intro s v r h; simp [jsonValue, jsonItems, jsonPairs] at h
  | succ n ih =>
    obtain ⟨ih1, ih2, ih3⟩ := ih
    refine ⟨?_, ?_, ?_⟩
    · intro s v r h
      rw [jsonValue.eq_def] at h
      simp only at h
      split at h
      · obtain ⟨⟨x, y⟩, h1, h2⟩ := except_map_ok h
        cases h2
        obtain ⟨t, rfl, ht⟩ := jBody_of h1
        exact ⟨'"' :: (t ++ ['"']), by simp, .text ht⟩
      · next r' =>
        obtain ⟨w, hw, hr, -⟩ := jsonWs_of r'
        split at h
        · next r'' hr' =>
          cases h
          rw [hr'] at hr
          exact ⟨'{' :: (w ++ ['}']), by simp [hr], .emptyDict hw⟩
        · obtain ⟨⟨x, y⟩, h1, h2⟩ := except_map_ok h
          cases h2
          obtain ⟨t, ps, h3, h4, rfl⟩ := ih3 _ _ _ h1
          rw [h3] at hr
          rw [dictOf_collected]
          exact ⟨'{' :: (w ++ (t ++ ['}'])), by simp [hr], .dict hw h4⟩
      · next r' =>
        obtain ⟨w, hw, hr, -⟩ := jsonWs_of r'
        split at h
        · next r'' hr' =>
          cases h
          rw [hr'] at hr
          exact ⟨'[' :: (w ++ [']']), by simp [hr], .emptyList hw⟩
        · obtain ⟨⟨x, y⟩, h1, h2⟩ := except_map_ok h
          cases h2
          obtain ⟨t, h3, h4⟩ := ih2 _ _ _ h1
          rw [h3] at hr
          exact ⟨'[' :: (w ++ (t ++ [']'])), by simp [hr], .list hw h4⟩
      · exact jsonAtom_of h
    · intro s l r h
      rw [jsonItems] at h
      obtain ⟨⟨v, r1⟩, h1, h2⟩ := except_bind_eq_ok.1 h
      obtain ⟨t, rfl, ht⟩ := ih1 _ _ _ h1
      simp only at h2
      obtain ⟨w, hw, hr, -⟩ := jsonWs_of r1
      split at h2
      · next r2 hr' =>
        cases h2
        rw [hr'] at hr
        exact ⟨t ++ w, by simp [hr], .one ht hw⟩
      · next r2 hr' =>
        obtain ⟨⟨l', r3⟩, h3, h4⟩ := except_bind_eq_ok.1 h2
        cases h4
        rw [hr'] at hr
        obtain ⟨w', hw', hr2, -⟩ := jsonWs_of r2
        obtain ⟨t', h5, ht'⟩ := ih2 _ _ _ h3
        rw [h5] at hr2
        exact ⟨t ++ (w ++ (',' :: (w' ++ t'))), by simp [hr, hr2], .more ht hw hw' ht'⟩
      · cases h2
    · intro s l r h
      rw [jsonPairs.eq_def] at h
      simp only at h
      split at h
      · next r0 =>
        obtain ⟨⟨k, r1⟩, h1, h2⟩ := except_bind_eq_ok.1 h
        obtain ⟨b, rfl, hb⟩ := jBody_of h1
        simp only at h2
        obtain ⟨w, hw, hr1, -⟩ := jsonWs_of r1
        split at h2
        · next r2 e2 =>
          rw [e2] at hr1
          obtain ⟨w', hw', hr2, -⟩ := jsonWs_of r2
          obtain ⟨⟨v, r3⟩, h3, h4⟩ := except_bind_eq_ok.1 h2
          obtain ⟨t, e3, ht⟩ := ih1 _ _ _ h3
          rw [e3] at hr2
          simp only at h4
          obtain ⟨w'', hw'', hr3, -⟩ := jsonWs_of r3
          split at h4
          · next r4 e4 =>
            cases h4
            rw [e4] at hr3
            exact ⟨_, [(k, v)], by simp [hr1, hr2, hr3], .one hb hw hw' ht hw'', rfl⟩
          · next r4 e4 =>
            obtain ⟨⟨l', r5⟩, h5, h6⟩ := except_bind_eq_ok.1 h4
            cases h6
            rw [e4] at hr3
            obtain ⟨w3, hw3, hr4, -⟩ := jsonWs_of r4
            obtain ⟨t', ps, e5, ht', rfl⟩ := ih3 _ _ _ h5
            rw [e5] at hr4
            exact ⟨_, (k, v) :: ps, by simp [hr1, hr2, hr3, hr4], .more hb hw hw' ht hw'' hw3 ht', rfl⟩
          · cases h4
        · cases h2
      · cases h

theorem begins_head {t r : Str} (h : Begins t) : ∀ c, (t ++ r).head? = some c → jsonSpace c = false := by
  obtain ⟨c, r', rfl, h, -⟩ := h
  intro d hd
  simp only [List.cons_append, List.head?_cons, Option.some.injEq] at hd
  subst hd
  exact h

theorem stops_space {w r : Str} (h : JSpace w) (hr : Stops r) : Stops (w ++ r) := by
  cases w with
  | nil => exact hr
  | cons c w =>
    intro d hd
    simp only [List.cons_append, List.head?_cons, Option.some.injEq] at hd
    subst hd
    right
    rcases h c (by simp) with rfl | rfl | rfl | rfl <;> decide

theorem whole_begins {ds : Str} (h : Digits ds) : 'I' ∉ ds ∧ ∃ c r, ds = c :: r ∧ c ∈ c!"0123456789" := by
  obtain ⟨h1, h2⟩ := h
  refine ⟨fun hI => by have := h2 _ hI; revert this; decide, ?_⟩
  cases ds with
  | nil => exact absurd rfl h1
  | cons c r => exact ⟨c, r, rfl, h2 c (by simp)⟩

theorem reads_natural {env : Env} {ds : Str} (h : ds = c!"0" ∨ (Digits ds ∧ ds.head? ≠ some '0')) :
    ReadsAs env ds (.int (digitsValue ds)) := by
  have hd := digits_of_whole h
  obtain ⟨hI, c, r, rfl, hc⟩ := whole_begins hd
  refine readsAs_number (.inr hc) (fun h => hI (by simp [h])) ?_
  intro rest hr
  exact jsonNumber_int (sign := []) (.inl rfl) h (parseInt_digits env.u (.inl rfl) hd) hr

theorem reads_negative {env : Env} {ds : Str} (h : ds = c!"0" ∨ (Digits ds ∧ ds.head? ≠ some '0')) :
    ReadsAs env ('-' :: ds) (.int (-(digitsValue ds : Int))) := by
  have hd := digits_of_whole h
  refine readsAs_number (.inl rfl) (whole_begins hd).1 ?_
  intro rest hr
  have := jsonNumber_int (env := env) (sign := c!"-") (.inr rfl) h (parseInt_digits env.u (.inr rfl) hd) hr
  simpa using this

theorem reads_real {env : Env} {t : Str} {x : PyFloat} (h1 : RealText t) (h2 : env.floatOfStr t = some x) : ReadsAs env t (.float x) := by
  obtain ⟨h3, c, r, h4, h5⟩ := realText_chars h1
  rw [h4] at h1 h2 h3 ⊢
  exact readsAs_number h5 (fun h => h3 (by simp [h])) (fun rest hr => jsonNumber_real h1 h2 hr)

theorem begins_opening {c : Char} (t : Str) (h : c = '"' ∨ c = '[' ∨ c = '{') : Begins (c :: t) := by
  refine ⟨c, t, rfl, ?_⟩
  rcases h with rfl | rfl | rfl <;> decide

theorem head_closing {c : Char} {r : Str} (h : jsonSpace c = false) : ∀ d, (c :: r).head? = some d → jsonSpace d = false := by
  intro d hd
  simp only [List.head?_cons, Option.some.injEq] at hd
  subst hd
  exact h

mutual
/-- What stands for a value is read as it. -/
theorem jText_reads {env : Env} {t : Str} {v : Val} (h : JText env t v) : ReadsAs env t v := by
  cases h with
  | null => exact readsAs_atom (c := 'n') (t := c!"ull") (by simp) (fun rest _ => by simp [jsonAtom, dropPrefix?])
  | true => exact readsAs_atom (c := 't') (t := c!"rue") (by simp) (fun rest _ => by simp [jsonAtom, dropPrefix?])
  | false => exact readsAs_atom (c := 'f') (t := c!"alse") (by simp) (fun rest _ => by simp [jsonAtom, dropPrefix?])
  | nan => exact readsAs_atom (c := 'N') (t := c!"aN") (by simp) (fun rest _ => by simp [jsonAtom, dropPrefix?])
  | infinity => exact readsAs_atom (c := 'I') (t := c!"nfinity") (by simp) (fun rest _ => by simp [jsonAtom, dropPrefix?])
  | minusInfinity => exact readsAs_atom (c := '-') (t := c!"Infinity") (by simp) (fun rest _ => by simp [jsonAtom, dropPrefix?])
  | natural h => exact reads_natural h
  | negative h => exact reads_negative h
  | real h1 h2 => exact reads_real h1 h2
  | text h =>
    refine ⟨begins_opening _ (by simp), ?_⟩
    intro n rest hn hr
    obtain ⟨m, rfl⟩ : ∃ m, n = m + 1 := ⟨n - 1, by simp at hn; omega⟩
    simp only [List.cons_append, List.append_assoc, List.nil_append]
    rw [jsonValue, jBody_read h]
    rfl
  | @emptyList w hw =>
    refine ⟨begins_opening _ (by simp), ?_⟩
    intro n rest hn hr
    obtain ⟨m, rfl⟩ : ∃ m, n = m + 1 := ⟨n - 1, by simp at hn; omega⟩
    simp only [List.cons_append, List.append_assoc, List.nil_append]
    rw [jsonValue, jsonWs_space hw (head_closing rfl)]
    rfl
  | @list w t' l hw hl =>
    obtain ⟨hb, ih⟩ := jItems_reads hl
    refine ⟨begins_opening _ (by simp), ?_⟩
    intro n rest hn hr
    simp only [List.length_cons, List.length_append, List.length_nil] at hn
    obtain ⟨m, rfl⟩ : ∃ m, n = m + 1 := ⟨n - 1, by omega⟩
    simp only [List.cons_append, List.append_assoc, List.nil_append]
    rw [jsonValue, jsonWs_space hw (begins_head hb)]
    have hi := ih m rest (by omega)
    obtain ⟨c, r, hc, h1, h2, h3⟩ := hb
    rw [hc] at hi ⊢
    simp only [List.cons_append] at hi ⊢
    split
    · next h => cases h; exact absurd rfl h2
    · rw [hi]; rfl
  | @emptyDict w hw =>
    refine ⟨begins_opening _ (by simp), ?_⟩
    intro n rest hn hr
    obtain ⟨m, rfl⟩ : ∃ m, n = m + 1 := ⟨n - 1, by simp at hn; omega⟩
    simp only [List.cons_append, List.append_assoc, List.nil_append]
    rw [jsonValue, jsonWs_space hw (head_closing rfl)]
    rfl
  | @dict w t' ps hw hl =>
    obtain ⟨hb, ih⟩ := jPairs_reads hl
    refine ⟨begins_opening _ (by simp), ?_⟩
    intro n rest hn hr
    simp only [List.length_cons, List.length_append, List.length_nil] at hn
    obtain ⟨m, rfl⟩ : ∃ m, n = m + 1 := ⟨n - 1, by omega⟩
    simp only [List.cons_append, List.append_assoc, List.nil_append]
    rw [jsonValue, jsonWs_space hw (begins_head hb)]
    have hi := ih m rest (by omega)
    obtain ⟨c, r, hc, h1, h2, h3⟩ := hb
    rw [hc] at hi ⊢
    simp only [List.cons_append] at hi ⊢
    split
    · next h => cases h; exact absurd rfl h3
    · rw [hi, ← dictOf_collected]; rfl
termination_by 2 * t.length
decreasing_by all_goals (simp only [List.length_cons, List.length_append, List.length_nil]; omega)
theorem jItems_reads {env : Env} {t : Str} {l : List Val} (h : JItems env t l) :
    Begins t ∧ ∀ n rest, t.length + 1 ≤ n → jsonItems env n (t ++ ']' :: rest) = .ok (l, rest) := by
  cases h with
  | @one t v w ht hw =>
    obtain ⟨hb, h⟩ := jText_reads ht
    refine ⟨by obtain ⟨c, r, rfl, hc⟩ := hb; exact ⟨c, _, rfl, hc⟩, ?_⟩
    intro n rest hn
    simp only [List.length_append] at hn
    obtain ⟨m, rfl⟩ : ∃ m, n = m + 1 := ⟨n - 1, by omega⟩
    rw [List.append_assoc, jsonItems, h m _ (by omega) (stops_space hw (stops_cons (by simp) _))]
    simp only [bind, Except.bind]
    rw [jsonWs_space hw (head_closing rfl)]
    rfl
  | @more t v w w' r l ht hw hw' hl =>
    obtain ⟨hb, h⟩ := jText_reads ht
    obtain ⟨hb', h'⟩ := jItems_reads hl
    refine ⟨by obtain ⟨c, r, rfl, hc⟩ := hb; exact ⟨c, _, rfl, hc⟩, ?_⟩
    intro n rest hn
    simp only [List.length_append, List.length_cons] at hn
    obtain ⟨m, rfl⟩ : ∃ m, n = m + 1 := ⟨n - 1, by omega⟩
    simp only [List.append_assoc, List.cons_append]
    rw [jsonItems, h m _ (by omega) (stops_space hw (stops_cons (by simp) _))]
    simp only [bind, Except.bind]
    rw [jsonWs_space hw (head_closing rfl)]
    simp only
    rw [jsonWs_space hw' (begins_head hb'), h' m rest (by omega)]
    rfl
termination_by 2 * t.length + 1
decreasing_by all_goals (simp only [List.length_cons, List.length_append, List.length_nil]; omega)
theorem jPairs_reads {env : Env} {t : Str} {ps : List (Str × Val)} (h : JPairs env t ps) :
    Begins t ∧ ∀ n rest, t.length + 1 ≤ n →
      jsonPairs env n (t ++ '}' :: rest) = .ok (ps.map fun p => (Val.str p.1, p.2), rest) := by
  cases h with
  | @one k b w w' t v w'' hk hw hw' ht hw'' =>
    obtain ⟨hb, h⟩ := jText_reads ht
    refine ⟨begins_opening _ (by simp), ?_⟩
    intro n rest hn
    simp only [List.length_append, List.length_cons] at hn
    obtain ⟨m, rfl⟩ : ∃ m, n = m + 1 := ⟨n - 1, by omega⟩
    simp only [List.append_assoc, List.cons_append]
    rw [jsonPairs, jBody_read hk]
    simp only [bind, Except.bind]
    rw [jsonWs_space hw (head_closing rfl)]
    simp only
    rw [jsonWs_space hw' (begins_head hb), h m _ (by omega) (stops_space hw'' (stops_cons (by simp) _))]
    simp only
    rw [jsonWs_space hw'' (head_closing rfl)]
    rfl
  | @more k b w w' t v w'' w3 r l hk hw hw' ht hw'' hw3 hl =>
    obtain ⟨hb, h⟩ := jText_reads ht
    obtain ⟨hb', h'⟩ := jPairs_reads hl
    refine ⟨begins_opening _ (by simp), ?_⟩
    intro n rest hn
    simp only [List.length_append, List.length_cons] at hn
    obtain ⟨m, rfl⟩ : ∃ m, n = m + 1 := ⟨n - 1, by omega⟩
    simp only [List.append_assoc, List.cons_append]
    rw [jsonPairs, jBody_read hk]
    simp only [bind, Except.bind]
    rw [jsonWs_space hw (head_closing rfl)]
    simp only
    rw [jsonWs_space hw' (begins_head hb), h m _ (by omega) (stops_space hw'' (stops_cons (by simp) _))]
    simp only
    rw [jsonWs_space hw'' (head_closing rfl)]
    simp only
    rw [jsonWs_space hw3 (begins_head hb'), h' m rest (by omega)]
    rfl
termination_by 2 * t.length + 1
decreasing_by all_goals (simp only [List.length_cons, List.length_append, List.length_nil]; omega)
end

/-- C56. A text is read as a value exactly if it is a JSON document that stands for it: white space anywhere between the
tokens, escapes in either case, numbers without leading zeros, and of several entries with one name the last one. -/
theorem C56_read (env : Env) (s : Str) (v : Val) : jsonUnserialize env s = .ok v ↔ JDocument env s v := by
  constructor
  · intro h
    unfold jsonUnserialize at h
    obtain ⟨⟨w, r⟩, h1, h2⟩ := except_bind_eq_ok.1 h
    obtain ⟨t, h3, h4⟩ := (jsonValue_of env _).1 _ _ _ h1
    obtain ⟨a, ha, hs, -⟩ := jsonWs_of s
    obtain ⟨b, hb, hr, -⟩ := jsonWs_of r
    simp only at h2
    split at h2
    · next he =>
      cases h2
      rw [List.isEmpty_iff.1 he, List.append_nil] at hr
      rw [h3] at hs
      exact ⟨a, t, r, hs, ha, hr ▸ hb, h4⟩
    · cases h2
  · rintro ⟨a, t, b, rfl, ha, hb, ht⟩
    obtain ⟨h1, h2⟩ := jText_reads ht
    unfold jsonUnserialize
    have hstop : Stops b := by simpa using stops_space hb (r := []) (by intro c hc; cases hc)
    rw [jsonWs_space ha (begins_head h1), h2 _ b (by simp only [List.length_append]; omega) hstop]
    have : jsonWs b = [] := by simpa using jsonWs_space hb (s := []) (by intro c hc; cases hc)
    simp [bind, Except.bind, this]

/-- C56. A document stands for one value only. -/
theorem C56_unambiguous (env : Env) (s : Str) (v w : Val) (hv : JDocument env s v) (hw : JDocument env s w) : v = w := by
  have h1 := (C56_read env s v).2 hv
  rw [(C56_read env s w).2 hw] at h1
  cases h1; rfl

set_option maxRecDepth 100000 in
/-- `C56_read` is not vacuous: a document with white space, escapes of either case and a repeated name. -/
example (env : Env) : jsonUnserialize env c!"\n{ \"a\" : [ ] ,\t\"b\":-0 , \"\\u0061\": \"\\u004a\\u004A\\/\" } " =
    .ok (.dict [(.str c!"a", .str c!"JJ/"), (.str c!"b", .int 0)]) := by rfl

/-- A surrogate pair is one character. -/
example (env : Env) : JDocument env c!"\"\\uD83d\\ude00\"" (.str c!"😀") := by
  refine ⟨[], _, [], (List.append_nil _).symm, by simp [JSpace], by simp [JSpace], .text (t := c!"\\uD83d\\ude00") ?_⟩
  rw [show '😀' = Char.ofNat (0x10000 + (0xd83d - 0xd800) * 1024 + (0xde00 - 0xdc00)) by decide +kernel]
  have hex : ∀ (a b c d : Char) n, jsonHexVal a b c d = some n → JHex [a, b, c, d] n := fun a b c d n => (jHex_iff a b c d n).2
  exact .pair (hex 'D' '8' '3' 'd' _ rfl) (hex 'd' 'e' '0' '0' _ rfl) (by decide) (by decide) .nil

/-- Leading zeros, trailing commas and single quotation marks are refused. -/
example (env : Env) : jsonUnserialize env c!"[01]" = jsonError ∧ jsonUnserialize env c!"[1,]" = jsonError ∧
    jsonUnserialize env c!"'a'" = jsonError := ⟨rfl, rfl, rfl⟩

end Scheme.Json
