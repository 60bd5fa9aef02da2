import Verif.Props.UrlEncoded
import Verif.Spec.Query

/-! C41: queries written by others, and the form of those written here. -/

namespace Scheme

theorem hexVal_iff (c : Char) (n : Nat) : hexVal c = some n ↔ HexDigit c n := by
  constructor
  · intro h
    unfold hexVal asciiDigit at h
    split at h
    · rename_i hc
      simp only [Bool.and_eq_true, decide_eq_true_eq] at hc
      cases h
      have : HexDigit (Char.ofNat (48 + (c.toNat - 48))) (c.toNat - 48) := .digit (by omega)
      rwa [show 48 + (c.toNat - 48) = c.toNat by omega, Char.ofNat_toNat] at this
    · split at h
      · rename_i hc
        simp only [Bool.and_eq_true, decide_eq_true_eq] at hc
        cases h
        have : HexDigit (Char.ofNat (55 + (c.toNat - 55))) (c.toNat - 55) := .upper (by omega) (by omega)
        rwa [show 55 + (c.toNat - 55) = c.toNat by omega, Char.ofNat_toNat] at this
      · split at h
        · rename_i hc
          simp only [Bool.and_eq_true, decide_eq_true_eq] at hc
          cases h
          have : HexDigit (Char.ofNat (87 + (c.toNat - 87))) (c.toNat - 87) := .lower (by omega) (by omega)
          rwa [show 87 + (c.toNat - 87) = c.toNat by omega, Char.ofNat_toNat] at this
        · cases h
  · intro h
    have key : (∀ n : Fin 10, hexVal (Char.ofNat (48 + n.val)) = some n.val) ∧
        (∀ n : Fin 16, 10 ≤ n.val → hexVal (Char.ofNat (55 + n.val)) = some n.val ∧ hexVal (Char.ofNat (87 + n.val)) = some n.val) := by
      decide +kernel
    cases h with
    | digit h => exact key.1 ⟨n, h⟩
    | upper h h' => exact (key.2 ⟨n, h'⟩ h).1
    | lower h h' => exact (key.2 ⟨n, h'⟩ h).2

theorem hexDigit_lt {c : Char} {n : Nat} (h : HexDigit c n) : n < 16 := by
  cases h <;> omega

theorem hexDigit_plus {c : Char} {n : Nat} (h : HexDigit c n) : c ≠ '+' ∧ c ≠ ' ' ∧ c ≠ '=' ∧ c ≠ '&' ∧ c ≠ ';' := by
  have h' := (hexVal_iff c n).2 h
  refine ⟨?_, ?_, ?_, ?_, ?_⟩ <;> (rintro rfl; cases h')

theorem plusToBlank_append (a b : Str) : plusToBlank (a ++ b) = plusToBlank a ++ plusToBlank b := List.map_append

theorem pctText_mem {bs : List Byte} {p : Str} (h : PctText bs p) {c : Char} (hc : c ∈ p) : c ≠ '=' ∧ c ≠ '&' ∧ c ≠ ';' := by
  induction h with
  | nil => cases hc
  | cons ha hb _ _ ih =>
    simp only [List.mem_cons] at hc
    rcases hc with rfl | rfl | rfl | hc
    · decide
    · exact (hexDigit_plus ha).2.2
    · exact (hexDigit_plus hb).2.2
    · exact ih hc

theorem unquoteRuns_pct {bs : List Byte} {p : Str} (h : PctText bs p) (acc : List Byte) (t : Str) :
    unquoteRuns acc (plusToBlank (p ++ t)) = unquoteRuns (acc ++ bs) (plusToBlank t) := by
  induction h generalizing acc with
  | nil => simp
  | @cons bs q a b x y z ha hb hz _ ih =>
    have h1 := hexDigit_plus ha
    have h2 := hexDigit_plus hb
    have h3 := hexDigit_lt ha
    have h4 := hexDigit_lt hb
    have : byteOf (x * 16 + y) = z := Fin.ext (by rw [byteOf_val (by omega), hz])
    have e : plusToBlank ('%' :: a :: b :: q ++ t) = '%' :: a :: b :: plusToBlank (q ++ t) := by
      simp [plusToBlank, h1.1, h2.1]
    rw [e, unquoteRuns, (hexVal_iff a x).2 ha, (hexVal_iff b y).2 hb]
    simp only [this, ih, List.append_assoc, List.cons_append, List.nil_append]

theorem utf8Enc_append (a b : Str) : utf8Enc (a ++ b) = utf8Enc a ++ utf8Enc b := List.flatMap_append

theorem utf8Enc_ascii {c : Char} (h : isAscii c = true) : utf8Enc [c] = [byteOf c.toNat] := by
  have : c.toNat < 128 := by simpa [isAscii] using h
  simp [utf8Enc, utf8Char, this]

theorem spelled_runs {nm : Bool} {s t : Str} (h : Spelled nm s t) (a : Str) :
    unquoteRuns (utf8Enc a) (plusToBlank t) = a ++ s := by
  induction h generalizing a with
  | nil => simp [plusToBlank, unquoteRuns, utf8_roundtrip]
  | @self c s t h1 h2 _ _ _ _ ih =>
    have e : plusToBlank (c :: t) = c :: plusToBlank t := by simp [plusToBlank, h2]
    rw [e]
    by_cases hc : isAscii c = true
    · rw [unquoteRuns_char _ _ hc h1, ← utf8Enc_ascii hc, ← utf8Enc_append, ih]
      simp
    · rw [unquoteRuns.eq_3 _ _ _ (fun _ _ _ h => absurd h h1), if_neg hc, utf8_roundtrip]
      have := ih []
      rw [List.nil_append] at this
      exact congrArg (a ++ c :: ·) this
  | @blank s t _ ih =>
    have e : plusToBlank ('+' :: t) = ' ' :: plusToBlank t := rfl
    rw [e, unquoteRuns_char _ _ rfl (by decide), ← utf8Enc_ascii rfl, ← utf8Enc_append, ih]
    simp
  | @bytes c p s t hp _ ih =>
    rw [unquoteRuns_pct hp, show utf8Char c = utf8Enc [c] by simp [utf8Enc], ← utf8Enc_append, ih]
    simp
  | @stray s t hs _ ih =>
    have e : plusToBlank ('%' :: t) = '%' :: plusToBlank t := rfl
    have hstep : unquoteRuns (utf8Enc a) ('%' :: plusToBlank t) = unquoteRuns (utf8Enc a ++ [byteOf 37]) (plusToBlank t) := by
      match t, hs with
      | [], _ => exact unquoteRuns.eq_3 (utf8Enc a) '%' [] (by intro _ _ _ _ h; cases h)
      | [x], _ => exact unquoteRuns.eq_3 (utf8Enc a) '%' [if x = '+' then ' ' else x] (by intro _ _ _ _ h; cases h)
      | x :: y :: r, hs =>
        rw [show plusToBlank (x :: y :: r) = (if x = '+' then ' ' else x) :: (if y = '+' then ' ' else y) :: plusToBlank r from rfl,
          unquoteRuns]
        split
        · rename_i m n hm hn
          refine (hs x y r m n rfl ?_ ?_).elim
          · by_cases hx : x = '+'
            · rw [if_pos hx] at hm; cases hm
            · rw [if_neg hx] at hm; exact (hexVal_iff ..).1 hm
          · by_cases hy : y = '+'
            · rw [if_pos hy] at hn; cases hn
            · rw [if_neg hy] at hn; exact (hexVal_iff ..).1 hn
        · rfl
    rw [e, hstep, show [byteOf 37] = utf8Enc ['%'] from rfl, ← utf8Enc_append, ih]
    simp

theorem utf8Char_ne (c : Char) : utf8Char c ≠ [] := by
  unfold utf8Char
  simp only
  split
  · simp
  · split
    · simp
    · split <;> simp

theorem spelled_plain {nm : Bool} {s t : Str} (h : Spelled nm s t) (ht : '%' ∉ t) : plusToBlank t = s := by
  induction h with
  | nil => rfl
  | @self c s t h1 h2 _ _ _ _ ih =>
    rw [show plusToBlank (c :: t) = c :: plusToBlank t by simp [plusToBlank, h2], ih fun h => ht (List.mem_cons_of_mem _ h)]
  | @blank s t _ ih =>
    rw [show plusToBlank ('+' :: t) = ' ' :: plusToBlank t from rfl, ih fun h => ht (List.mem_cons_of_mem _ h)]
  | @bytes c p s t hp _ ih =>
    cases hb : utf8Char c with
    | nil => exact absurd hb (utf8Char_ne c)
    | cons b bs =>
      rw [hb] at hp
      cases hp
      exact absurd (by simp) ht
  | stray => exact absurd (List.mem_cons_self ..) ht

theorem spelled_read {nm : Bool} {s t : Str} (h : Spelled nm s t) : unquote (plusToBlank t) = s := by
  unfold unquote
  split
  · exact spelled_runs h []
  · rename_i hp
    refine spelled_plain h fun hm => hp ?_
    simp only [List.contains_iff_mem]
    exact List.mem_map.2 ⟨'%', hm, rfl⟩

theorem spelled_mem {nm : Bool} {s t : Str} (h : Spelled nm s t) : '&' ∉ t ∧ ';' ∉ t ∧ (nm = true → '=' ∉ t) := by
  induction h with
  | nil => simp
  | self _ _ h1 h2 h3 _ ih =>
    simp only [List.mem_cons, not_or]
    exact ⟨⟨Ne.symm h1, ih.1⟩, ⟨Ne.symm h2, ih.2.1⟩, fun hn => ⟨Ne.symm (h3 hn), ih.2.2 hn⟩⟩
  | blank _ ih => simpa using ih
  | stray _ _ ih => simpa using ih
  | bytes hp _ ih =>
    simp only [List.mem_append, not_or]
    exact ⟨⟨fun h => (pctText_mem hp h).2.1 rfl, ih.1⟩, ⟨fun h => (pctText_mem hp h).2.2 rfl, ih.2.1⟩,
      fun hn => ⟨fun h => (pctText_mem hp h).1 rfl, ih.2.2 hn⟩⟩

theorem spelled_ne {nm : Bool} {s t : Str} (h : Spelled nm s t) (hs : s ≠ []) : t ≠ [] := by
  rintro rfl
  exact hs (spelled_read h).symm

theorem param_mem {p : Str} {es : List (Str × Str)} (h : Param p es) : '&' ∉ p ∧ ';' ∉ p := by
  cases h with
  | pair h1 h2 _ =>
    have := spelled_mem h1
    have := spelled_mem h2
    simp_all
  | empty => simp_all
  | bare => simp_all

theorem splitEq_none {a : Str} (h : '=' ∉ a) : splitEq a = none := by
  induction a with
  | nil => rfl
  | cons c r ih =>
    rw [List.mem_cons, not_or] at h
    simp [splitEq, Ne.symm h.1, ih h.2]

/-- The last steps of `parse_qsl`. -/
theorem param_read {p : Str} {es : List (Str × Str)} (h : Param p es) :
    ([p].filterMap splitEq).filterMap (fun p => if p.2.isEmpty then none else some (unquote (plusToBlank p.1), unquote (plusToBlank p.2))) =
      es := by
  cases h with
  | pair h1 h2 h3 =>
    have := (spelled_mem h1).2.2 rfl
    have h4 := spelled_ne h2 h3
    simp [splitEq_append this, h4, spelled_read h1, spelled_read h2]
  | empty h => simp [splitEq_append h]
  | bare h => simp [splitEq_none h]

theorem splitOn_cut {c : Char} {p q : Str} (h : c ∉ p) : splitOn c (p ++ c :: q) = p :: splitOn c q := by
  induction p with
  | nil => simp [splitOn]
  | cons x p ih =>
    rw [List.mem_cons, not_or] at h
    rw [List.cons_append, splitOn, if_neg (Ne.symm h.1), ih h.2]

theorem splitOn_other {c d : Char} {p q : Str} (h : c ∉ p) (hd : d ≠ c) :
    ∃ x xs, splitOn c q = x :: xs ∧ splitOn c (p ++ d :: q) = (p ++ d :: x) :: xs := by
  have hq : ∃ x xs, splitOn c q = x :: xs := by
    cases hs : splitOn c q with
    | cons x xs => exact ⟨x, xs, rfl⟩
    | nil =>
      exfalso
      cases q with
      | nil => cases hs
      | cons y q =>
        unfold splitOn at hs
        split at hs
        · cases hs
        · split at hs <;> cases hs
  obtain ⟨x, xs, hq⟩ := hq
  refine ⟨x, xs, hq, ?_⟩
  induction p with
  | nil => simp [splitOn, hd, hq]
  | cons y p ih =>
    rw [List.mem_cons, not_or] at h
    rw [List.cons_append, splitOn, if_neg (Ne.symm h.1), ih h.2, List.cons_append]

theorem query_split {q : Str} {es : List (Str × Str)} (h : Query q es) :
    ((((splitOn '&' q).flatMap (splitOn ';')).filterMap splitEq).filterMap fun p =>
      if p.2.isEmpty then none else some (unquote (plusToBlank p.1), unquote (plusToBlank p.2))) = es := by
  induction h with
  | @one p es hp =>
    obtain ⟨h1, h2⟩ := param_mem hp
    rw [splitOn_none h1, List.flatMap_cons, splitOn_none h2, List.flatMap_nil, List.append_nil]
    exact param_read hp
  | @more p q es fs sep hp hsep _ ih =>
    obtain ⟨h1, h2⟩ := param_mem hp
    have key : (splitOn '&' (p ++ sep :: q)).flatMap (splitOn ';') = [p] ++ (splitOn '&' q).flatMap (splitOn ';') := by
      rcases hsep with rfl | rfl
      · rw [splitOn_cut h1, List.flatMap_cons, splitOn_none h2]
      · obtain ⟨x, xs, h3, h4⟩ := splitOn_other (q := q) h1 (show ';' ≠ '&' by decide)
        rw [h4, h3, List.flatMap_cons, List.flatMap_cons, splitOn_cut h2]
        rfl
    rw [key, List.filterMap_append, List.filterMap_append, ih, param_read hp]

/-- C41. Whoever wrote a query, with whatever characters percent-encoded, in either case, blanks as `+` or not, `&` or
`;` between the parameters, reading it gives what reading the query that urlencode writes for its entries gives. -/
theorem C41_foreign (env : Env) (q : Str) (es : List (Str × Str)) (h : Query q es) :
    urlUnserialize env (.str q) = urlUnserialize env (.str (urlencode es)) := by
  have h1 : parseQsl q = es := query_split h
  have h2 : ∀ p ∈ es, p.2 ≠ [] := by
    clear h1
    have key : ∀ {p es}, Param p es → ∀ e ∈ es, e.2 ≠ [] := by
      intro p es h e he
      cases h with
      | pair _ _ h => simp at he; subst he; exact h
      | empty => cases he
      | bare => cases he
    induction h with
    | one hp => exact key hp
    | more hp _ _ ih =>
      intro e he
      rcases List.mem_append.1 he with he | he
      · exact key hp e he
      · exact ih e he
  have h3 : es.filter (fun p => !p.2.isEmpty) = es := by
    rw [List.filter_eq_self]
    intro p hp
    have := h2 p hp
    cases hq : p.2 with
    | nil => exact absurd hq this
    | cons => rfl
  simp only [urlUnserialize, h1, parseQsl_urlencode, h3]

theorem unescaped_safe : ∀ b : Byte, b.val < 128 → Unescaped (Char.ofNat b.val) → urlSafe b.val = true ∧ b.val ≠ 32 := by
  unfold Unescaped
  decide +kernel

theorem safe_unescaped : ∀ b : Byte, urlSafe b.val = true → Unescaped (Char.ofNat b.val) := by
  unfold Unescaped
  decide +kernel

theorem unescaped_ascii {c : Char} (h : Unescaped c) : c.toNat < 128 := by
  simp only [Unescaped, Char.le_def, UInt32.le_iff_toNat_le] at h
  have e : c.toNat = c.val.toNat := rfl
  rcases h with h | h | h | h | h | h | h
  · have : c.val.toNat ≤ 122 := h.2
    omega
  · have : c.val.toNat ≤ 90 := h.2
    omega
  · have : c.val.toNat ≤ 57 := h.2
    omega
  all_goals subst h; decide

/-- C41. Texts of letters, digits and `_.-~` are written as they are. -/
theorem C41_unescaped (s : Str) (h : ∀ c ∈ s, Unescaped c) : quotePlus s = s := by
  induction s with
  | nil => rfl
  | cons c s ih =>
    have hc := h c (List.mem_cons_self ..)
    have ha := unescaped_ascii hc
    have hv : (byteOf c.toNat).val = c.toNat := byteOf_val (by omega)
    have hs := unescaped_safe (byteOf c.toNat) (by rw [hv]; exact ha) (by rw [hv, Char.ofNat_toNat]; exact hc)
    have e : quotePlus (c :: s) = quoteByte (byteOf c.toNat) ++ quotePlus s := by
      simp [quotePlus, utf8Enc, utf8Char, ha]
    rw [e, ih fun c hc => h c (List.mem_cons_of_mem _ hc)]
    unfold quoteByte
    rw [if_neg hs.2, if_pos hs.1, hv, Char.ofNat_toNat]
    rfl

theorem upper_hex : ∀ n : Fin 16, HexDigit (hexUpper n.val) n.val ∧ (('0' ≤ hexUpper n.val ∧ hexUpper n.val ≤ '9') ∨ ('A' ≤ hexUpper n.val ∧ hexUpper n.val ≤ 'F')) := by
  intro n
  refine ⟨(hexVal_iff ..).1 (hexUpper_char n).1, ?_⟩
  revert n
  decide +kernel

/-- C41. What urlencode writes for any text consists of letters, digits and `_.-~+%` only. -/
theorem C41_written (s : Str) (c : Char) (h : c ∈ quotePlus s) : Unescaped c ∨ c = '+' ∨ c = '%' := by
  obtain ⟨b, -, hc⟩ := List.mem_flatMap.1 h
  have up : ∀ n : Fin 16, Unescaped (hexUpper n.val) := by
    intro n
    rcases (upper_hex n).2 with h | h
    · exact .inr (.inr (.inl h))
    · exact .inr (.inl ⟨h.1, Char.le_trans h.2 (by decide)⟩)
  rcases quoteByte_cases b with ⟨-, he⟩ | ⟨hb, he⟩ | he
  · rw [he, List.mem_singleton] at hc; exact .inr (.inl hc)
  · rw [he, List.mem_singleton] at hc; subst hc; exact .inl (safe_unescaped b hb)
  · rw [he] at hc
    simp only [List.mem_cons, List.not_mem_nil, or_false] at hc
    rcases hc with rfl | rfl | rfl
    · exact .inr (.inr rfl)
    · exact .inl (up ⟨b.val / 16, by omega⟩)
    · exact .inl (up ⟨b.val % 16, by omega⟩)

example : quotePlus c!"a b.é" = c!"a+b.%C3%A9" := by decide +kernel
example : Query c!"a%62=1+2;c" [(c!"ab", c!"1 2")] :=
  .more (sep := ';') (p := c!"a%62=1+2") (q := c!"c") (es := [(c!"ab", c!"1 2")]) (fs := [])
    (.pair (a := c!"a%62") (b := c!"1+2")
      (.self (by decide) (by decide) (by decide) (by decide) (fun _ => by decide)
        (.bytes (c := 'b') (p := c!"%62") (t := []) (.cons (.digit (n := 6) (by decide)) (.digit (n := 2) (by decide)) rfl .nil) .nil))
      (.self (by decide) (by decide) (by decide) (by decide) (fun h => nomatch h)
        (.blank (.self (by decide) (by decide) (by decide) (by decide) (fun h => nomatch h) .nil)))
      (by decide))
    (.inr rfl) (.one (.bare (by decide) (by decide) (by decide)))

end Scheme
