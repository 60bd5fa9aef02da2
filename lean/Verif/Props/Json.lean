import Verif.Model.Json
import Verif.Spec.Json
import Verif.Props.StructuredText
import Verif.Props.Xml

/-! C56: JSON documents are read back. -/

namespace Scheme

open Json

/-! ### texts -/

theorem hexVal_hexLower : ∀ n : Fin 16, hexVal (hexLower n.val) = some n.val := by decide

theorem hexVal_lower {n : Nat} (h : n < 16) : hexVal (hexLower n) = some n := hexVal_hexLower ⟨n, h⟩

theorem jsonHexVal_hex {n : Nat} (h : n < 65536) :
    jsonHexVal (hexLower (n / 4096 % 16)) (hexLower (n / 256 % 16)) (hexLower (n / 16 % 16)) (hexLower (n % 16)) = some n := by
  simp only [jsonHexVal, hexVal_lower (Nat.mod_lt _ (by decide : 16 > 0)), Option.bind_eq_bind, Option.bind_some, Option.pure_def]
  congr 1
  omega

theorem jsonString_plain {c : Char} (h1 : c ≠ '"') (h2 : c ≠ '\\') (h3 : 32 ≤ c.toNat) (r : Str) :
    jsonString (c :: r) = (jsonString r).map fun p => (c :: p.1, p.2) := by
  rw [jsonString]
  · rw [if_neg (by rintro (h | h); exact h2 h; omega)]
  · exact h1
  · intro a b c' d r' h; exact fun _ => absurd h h2
  · intro a b h; exact absurd h h2

theorem jsonString_hex {n : Nat} (h : n < 65536) (h' : n < 0xd800 ∨ 0xe000 ≤ n) (r : Str) :
    jsonString (jsonHex n ++ r) = (jsonString r).map fun p => (Char.ofNat n :: p.1, p.2) := by
  simp only [jsonHex, List.cons_append, List.nil_append]
  rw [jsonString, jsonHexVal_hex h]
  simp only
  rw [if_neg (by omega), if_neg (by omega)]

theorem jsonString_pair {n m : Nat} (hn : 0xd800 ≤ n ∧ n < 0xdc00) (hm : 0xdc00 ≤ m ∧ m < 0xe000) (r : Str) :
    jsonString (jsonHex n ++ (jsonHex m ++ r)) =
      (jsonString r).map fun p => (Char.ofNat (65536 + (n - 0xd800) * 1024 + (m - 0xdc00)) :: p.1, p.2) := by
  simp only [jsonHex, List.cons_append, List.nil_append]
  rw [jsonString, jsonHexVal_hex (by omega)]
  simp only
  rw [if_pos hn, jsonHexVal_hex (by omega)]
  simp only
  rw [if_pos hm]

theorem toNat_valid (c : Char) : c.toNat < 0xd800 ∨ 0xdfff < c.toNat ∧ c.toNat < 0x110000 := c.valid

theorem jsonString_char (c : Char) (r : Str) :
    jsonString (jsonChar c ++ r) = (jsonString r).map fun p => (c :: p.1, p.2) := by
  unfold jsonChar
  split
  · subst c; simp [jsonString, jsonUnescape]
  split
  · subst c; simp [jsonString, jsonUnescape]
  split
  · subst c; simp [jsonString, jsonUnescape]
  split
  · subst c; simp [jsonString, jsonUnescape]
  split
  · subst c; simp [jsonString, jsonUnescape]
  split
  · subst c; simp [jsonString, jsonUnescape]
  split
  · subst c; simp [jsonString, jsonUnescape]
  rename_i h1 h2 h3 h4 h5 h6 h7
  have hv := toNat_valid c
  split
  · exact jsonString_plain h2 h1 (by omega) r
  split
  · rw [jsonString_hex (by omega) (by omega), Char.ofNat_toNat]
  · rw [List.append_assoc, jsonString_pair (by omega) (by omega)]
    have : 65536 + (0xd800 + (c.toNat - 65536) / 1024 - 0xd800) * 1024 + (0xdc00 + (c.toNat - 65536) % 1024 - 0xdc00) = c.toNat := by
      omega
    rw [this, Char.ofNat_toNat]

theorem jsonString_quote (s r : Str) : jsonString (s.flatMap jsonChar ++ '"' :: r) = .ok (s, r) := by
  induction s with
  | nil => simp [jsonString]
  | cons c s ih => rw [List.flatMap_cons, List.append_assoc, jsonString_char, ih]; rfl

/-! ### numbers -/

/-- What may follow a value. -/
def Stops (r : Str) : Prop := ∀ c, r.head? = some c → (c = ',' ∨ c = ']' ∨ c = '}') ∨ c ∈ c!" \t\n\r"

theorem takeWhile_stop {p : Char → Bool} {a r : Str} (ha : ∀ c ∈ a, p c = true) (hr : ∀ c, r.head? = some c → p c = false) :
    (a ++ r).takeWhile p = a ∧ (a ++ r).dropWhile p = r := by
  induction a with
  | nil =>
    cases r with
    | nil => simp
    | cons c r => simp [hr c rfl]
  | cons c a ih =>
    have := ih (fun x hx => ha x (by simp [hx]))
    simp [ha c (by simp), this.1, this.2]

theorem asciiDigit_iff (c : Char) : asciiDigit c = true ↔ c ∈ c!"0123456789" := by
  constructor
  · intro h
    simp only [asciiDigit, Bool.and_eq_true, decide_eq_true_eq] at h
    have : c = Char.ofNat c.toNat := (Char.ofNat_toNat c).symm
    rw [this]
    have h2 : ∀ n, n < 58 → 48 ≤ n → Char.ofNat n ∈ c!"0123456789" := by decide
    exact h2 _ (by omega) h.1
  · intro h
    have : ∀ c ∈ c!"0123456789", asciiDigit c = true := by decide
    exact this c h

theorem jsonDigits_read {ds r : Str} (h : ds = c!"0" ∨ (Digits ds ∧ ds.head? ≠ some '0'))
    (hr : ∀ c, r.head? = some c → asciiDigit c = false) : jsonDigits (ds ++ r) = some (ds, r) := by
  rcases h with rfl | ⟨⟨h1, h2⟩, h3⟩
  · rfl
  · cases ds with
    | nil => exact absurd rfl h1
    | cons c ds =>
      have hc : c ≠ '0' := by simpa using h3
      have := takeWhile_stop (p := asciiDigit) (a := c :: ds) (r := r) (fun x hx => (asciiDigit_iff x).2 (h2 x hx)) hr
      simp only [List.cons_append] at this
      simp only [List.cons_append, jsonDigits, if_neg hc, (asciiDigit_iff c).2 (h2 c (by simp)), if_true, this.1, this.2]

theorem jsonFrac_none {r : Str} (h : ∀ c, r.head? = some c → c ≠ '.') : jsonFrac r = ([], r) := by
  rw [jsonFrac]
  intro d r' hr
  subst hr
  exact absurd rfl (h _ rfl)

theorem jsonFrac_some {ds r : Str} (h : Digits ds) (hr : ∀ c, r.head? = some c → asciiDigit c = false) :
    jsonFrac ('.' :: (ds ++ r)) = ('.' :: ds, r) := by
  cases ds with
  | nil => exact absurd rfl h.1
  | cons c ds =>
    have := takeWhile_stop (p := asciiDigit) (a := c :: ds) (r := r) (fun x hx => (asciiDigit_iff x).2 (h.2 x hx)) hr
    simp only [List.cons_append] at this
    simp only [List.cons_append, jsonFrac, (asciiDigit_iff c).2 (h.2 c (by simp)), if_true, this.1, this.2]

theorem jsonExpDigits_some {pre ds r : Str} (h : Digits ds) (hr : ∀ c, r.head? = some c → asciiDigit c = false) :
    jsonExpDigits pre (ds ++ r) = (pre ++ ds, r) := by
  cases ds with
  | nil => exact absurd rfl h.1
  | cons c ds =>
    have := takeWhile_stop (p := asciiDigit) (a := c :: ds) (r := r) (fun x hx => (asciiDigit_iff x).2 (h.2 x hx)) hr
    simp only [List.cons_append] at this
    simp only [List.cons_append, jsonExpDigits, (asciiDigit_iff c).2 (h.2 c (by simp)), if_true, this.1, this.2]

theorem jsonExp_none {r : Str} (h : ∀ c, r.head? = some c → c ≠ 'e' ∧ c ≠ 'E') : jsonExp r = ([], r) := by
  cases r with
  | nil => rfl
  | cons c r =>
    obtain ⟨h1, h2⟩ := h c rfl
    have : ¬ (c = 'e' ∨ c = 'E') := by simp [h1, h2]
    unfold jsonExp
    split
    · next h => cases h; rw [if_neg this]
    · next h => cases h; rw [if_neg this]
    · next h => cases h; rw [if_neg this]
    · next h => cases h

theorem jsonExp_some {e : Char} {s ds r : Str} (he : e = 'e' ∨ e = 'E') (hs : s = [] ∨ s = c!"+" ∨ s = c!"-") (h : Digits ds)
    (hr : ∀ c, r.head? = some c → asciiDigit c = false) : jsonExp (e :: (s ++ (ds ++ r))) = (e :: (s ++ ds), r) := by
  rcases hs with rfl | rfl | rfl
  · cases ds with
    | nil => exact absurd rfl h.1
    | cons c ds =>
      have hc := h.2 c (by simp)
      have key := jsonExpDigits_some (pre := [e]) h hr
      simp only [List.cons_append, List.nil_append] at key ⊢
      rw [jsonExp, if_pos he]
      · exact key
      · intro r' h'; cases h'; simp at hc
      · intro r' h'; cases h'; simp at hc
  · have key := jsonExpDigits_some (pre := [e, '+']) h hr
    simp only [List.cons_append, List.nil_append] at key ⊢
    rw [jsonExp, if_pos he]
    exact key
  · have key := jsonExpDigits_some (pre := [e, '-']) h hr
    simp only [List.cons_append, List.nil_append] at key ⊢
    rw [jsonExp, if_pos he]
    exact key

theorem stops_ne {r : Str} (h : Stops r) {c : Char} (hc : r.head? = some c) : asciiDigit c = false ∧ c ≠ '.' ∧ c ≠ 'e' ∧ c ≠ 'E' := by
  rcases h c hc with (rfl | rfl | rfl) | h
  · decide
  · decide
  · decide
  · clear hc; revert c; decide

theorem jsonSign_read {sign ds r : Str} (hs : sign = [] ∨ sign = c!"-")
    (hd : ds = c!"0" ∨ (Digits ds ∧ ds.head? ≠ some '0')) : jsonSign (sign ++ (ds ++ r)) = (sign, ds ++ r) := by
  rcases hs with rfl | rfl
  · cases hd' : ds with
    | nil => rcases hd with h | h <;> simp [hd', Digits] at h
    | cons c ds' =>
      have : c ≠ '-' := by
        rintro rfl
        rcases hd with h | h <;> simp [hd', Digits] at h
      simp only [List.nil_append, List.cons_append]
      rw [jsonSign]
      intro r' h
      cases h
      exact absurd rfl this
  · rfl

theorem jsonNumber_int {env : Env} {sign ds r : Str} {i : Int} (hs : sign = [] ∨ sign = c!"-")
    (hd : ds = c!"0" ∨ (Digits ds ∧ ds.head? ≠ some '0')) (hi : parseInt env.u (sign ++ ds) = some i) (hr : Stops r) :
    jsonNumber env (sign ++ (ds ++ r)) = .ok (.int i, r) := by
  rw [jsonNumber, jsonSign_read hs hd]
  simp only
  rw [jsonDigits_read hd (fun c hc => (stops_ne hr hc).1)]
  simp only
  rw [jsonFrac_none (fun c hc => (stops_ne hr hc).2.1)]
  simp only
  rw [jsonExp_none (fun c hc => (stops_ne hr hc).2.2)]
  simp [hi]

theorem jsonNumber_real {env : Env} {t r : Str} {x : PyFloat} (ht : RealText t) (hx : env.floatOfStr t = some x) (hr : Stops r) :
    jsonNumber env (t ++ r) = .ok (.float x, r) := by
  obtain ⟨sign, whole, frac, exp, rfl, h1, h2, h3, h4, h5⟩ := ht
  have hexp : jsonExp (exp ++ r) = (exp, r) := by
    rcases h4 with rfl | ⟨e, s, ds, he, hs, hd, rfl⟩
    · exact jsonExp_none (fun c hc => (stops_ne hr hc).2.2)
    · have := jsonExp_some (r := r) he hs hd (fun c hc => (stops_ne hr hc).1)
      simpa using this
  have hexph : ∀ c, (exp ++ r).head? = some c → asciiDigit c = false ∧ c ≠ '.' := by
    intro c hc
    rcases h4 with rfl | ⟨e, s, ds, he, hs, hd, rfl⟩
    · exact ⟨(stops_ne hr hc).1, (stops_ne hr hc).2.1⟩
    · simp only [List.cons_append, List.head?_cons, Option.some.injEq] at hc
      subst hc
      rcases he with rfl | rfl <;> decide
  have hfrac : jsonFrac (frac ++ (exp ++ r)) = (frac, exp ++ r) := by
    rcases h3 with rfl | ⟨ds, hd, rfl⟩
    · exact jsonFrac_none (fun c hc => (hexph c hc).2)
    · exact jsonFrac_some hd (fun c hc => (hexph c hc).1)
  have hfrach : ∀ c, (frac ++ (exp ++ r)).head? = some c → asciiDigit c = false := by
    intro c hc
    rcases h3 with rfl | ⟨ds, hd, rfl⟩
    · exact (hexph c hc).1
    · simp only [List.cons_append, List.head?_cons, Option.some.injEq] at hc
      subst hc
      decide
  rw [List.append_assoc, List.append_assoc, List.append_assoc, jsonNumber, jsonSign_read h1 h2]
  simp only
  rw [jsonDigits_read h2 hfrach]
  simp only
  rw [hfrac]
  simp only
  rw [hexp]
  have he : ¬ ((frac.isEmpty && exp.isEmpty) = true) := by
    rcases h5 with h | h <;> simp [h]
  simp only
  rw [if_neg he]
  simp only [← List.append_assoc, hx]

/-! ### values -/

theorem natStr_json (n : Nat) : natStr n = c!"0" ∨ (Digits (natStr n) ∧ (natStr n).head? ≠ some '0') := by
  induction n using Nat.strongRecOn with
  | ind n ih =>
    have hd : ∀ d, d < 10 → digitChar d ∈ c!"0123456789" := by decide
    have h0 : ∀ d, d < 10 → d ≠ 0 → digitChar d ≠ '0' := by decide
    rw [natStr_step]
    by_cases h : n < 10
    · rw [if_pos h]
      by_cases hz : n = 0
      · subst hz; exact .inl rfl
      · exact .inr ⟨⟨by simp, by simpa using hd n h⟩, by simpa using h0 n h hz⟩
    · rw [if_neg h]
      right
      rcases ih (n / 10) (by omega) with h' | ⟨⟨h1, h2⟩, h3⟩
      · exfalso
        obtain ⟨ds, e1, e2, e3, e4⟩ := natStr_digits (n / 10)
        rw [h'] at e3
        cases ds with
        | nil => cases e3
        | cons d ds =>
          simp only [List.map_cons, List.cons.injEq] at e3
          have : d = 0 := by
            by_cases hd0 : d = 0
            · exact hd0
            · exact absurd e3.1.symm (h0 d (e2 d (by simp)) hd0)
          have hds : ds = [] := by
            have := congrArg List.length e3.2
            simpa using this.symm
          subst this hds
          simp [digitsNat] at e4
          omega
      · refine ⟨⟨by simp, ?_⟩, ?_⟩
        · intro c hc
          rcases List.mem_append.1 hc with hc | hc
          · exact h2 c hc
          · simp only [List.mem_singleton] at hc
            subst hc
            exact hd _ (Nat.mod_lt _ (by decide))
        · cases hn : natStr (n / 10) with
          | nil => exact absurd hn h1
          | cons a b => simpa [hn] using h3

theorem jsonAtom_number {env : Env} {s : Str} {c : Char} (hc : c = '-' ∨ c ∈ c!"0123456789") (hn : ∀ r, s ≠ 'I' :: r) :
    jsonAtom env (c :: s) = jsonNumber env (c :: s) := by
  have h1 : c ≠ 'n' ∧ c ≠ 't' ∧ c ≠ 'f' ∧ c ≠ 'N' ∧ c ≠ 'I' := by
    have : ∀ c, c = '-' ∨ c ∈ c!"0123456789" → c ≠ 'n' ∧ c ≠ 't' ∧ c ≠ 'f' ∧ c ≠ 'N' ∧ c ≠ 'I' := by
      rintro c (rfl | h)
      · decide
      · revert c; decide
    exact this c hc
  have h2 : dropPrefix? c!"-Infinity" (c :: s) = none := by
    cases s with
    | nil => simp [dropPrefix?]
    | cons d s =>
      have : d ≠ 'I' := by rintro rfl; exact hn s rfl
      simp only [dropPrefix?, if_neg this.symm]
      simp
  simp only [jsonAtom, h2]
  simp [dropPrefix?, h1.1.symm, h1.2.1.symm, h1.2.2.1.symm, h1.2.2.2.1.symm, h1.2.2.2.2.symm]

theorem jsonValue_atom {env : Env} {n : Nat} {c : Char} {s : Str} (h1 : c ≠ '"') (h2 : c ≠ '{') (h3 : c ≠ '[') :
    jsonValue env (n + 1) (c :: s) = jsonAtom env (c :: s) := by
  rw [jsonValue]
  · intro r h; cases h; exact h1 rfl
  · intro r h; cases h; exact h2 rfl
  · intro r h; cases h; exact h3 rfl

/-- A text that a value may begin with. -/
def Begins (t : Str) : Prop := ∃ c r, t = c :: r ∧ jsonSpace c = false ∧ c ≠ ']' ∧ c ≠ '}'

/-- A text that is read as a value wherever a value may stand. -/
def ReadsAs (env : Env) (t : Str) (w : Val) : Prop :=
  Begins t ∧ ∀ n rest, t.length ≤ n → Stops rest → jsonValue env n (t ++ rest) = .ok (w, rest)

theorem jsonWs_begins {t r : Str} (h : Begins t) : jsonWs (t ++ r) = t ++ r := by
  obtain ⟨c, r', rfl, h, -⟩ := h
  simp [jsonWs, h]

theorem readsAs_atom {env : Env} {c : Char} {t : Str} {w : Val} (hc : c ∈ c!"-0123456789ntfNI")
    (h : ∀ rest, Stops rest → jsonAtom env (c :: (t ++ rest)) = .ok (w, rest)) : ReadsAs env (c :: t) w := by
  have hc' : ∀ c ∈ c!"-0123456789ntfNI", jsonSpace c = false ∧ c ≠ ']' ∧ c ≠ '}' ∧ c ≠ '"' ∧ c ≠ '{' ∧ c ≠ '[' := by decide
  obtain ⟨h1, h2, h3, h4, h5, h6⟩ := hc' c hc
  refine ⟨⟨c, t, rfl, h1, h2, h3⟩, ?_⟩
  intro n rest hn hr
  obtain ⟨m, rfl⟩ : ∃ m, n = m + 1 := ⟨n - 1, by simp at hn; omega⟩
  rw [List.cons_append, jsonValue_atom h4 h5 h6]
  exact h rest hr

theorem readsAs_number {env : Env} {c : Char} {t : Str} {w : Val} (hc : c = '-' ∨ c ∈ c!"0123456789") (hI : 'I' ∉ t)
    (h : ∀ rest, Stops rest → jsonNumber env (c :: t ++ rest) = .ok (w, rest)) : ReadsAs env (c :: t) w := by
  apply readsAs_atom
  · rcases hc with rfl | hc
    · simp
    · have : ∀ c ∈ c!"0123456789", c ∈ c!"-0123456789ntfNI" := by decide
      exact this c hc
  · intro rest hr
    rw [jsonAtom_number hc]
    · exact h rest hr
    · intro r hrr
      cases t with
      | nil =>
        have := hr 'I' (by simp only [List.nil_append] at hrr; simp [hrr])
        revert this; decide
      | cons d t =>
        simp only [List.cons_append, List.cons.injEq] at hrr
        exact hI (by simp [hrr.1])

theorem readsAs_int (env : Env) (i : Int) : ReadsAs env (intStr i) (.int i) := by
  have hne : ∀ n, ∃ c t, natStr n = c :: t ∧ c ∈ c!"0123456789" ∧ 'I' ∉ natStr n := by
    intro n
    rcases natStr_json n with h | ⟨⟨h1, h2⟩, -⟩
    · exact ⟨'0', [], h, by simp, by simp [h]⟩
    · cases h : natStr n with
      | nil => exact absurd h h1
      | cons c t =>
        rw [h] at h2
        exact ⟨c, t, rfl, h2 c (by simp), fun hI => by have := h2 _ hI; revert this; decide⟩
  have hp := parseInt_intStr env.u i
  cases i with
  | ofNat n =>
    obtain ⟨c, t, h1, h2, h3⟩ := hne n
    simp only [intStr] at hp ⊢
    have hj := natStr_json n
    rw [h1] at h3 hj hp ⊢
    refine readsAs_number (.inr h2) (fun h => h3 (by simp [h])) ?_
    intro rest hr
    have := jsonNumber_int (env := env) (sign := []) (ds := c :: t) (.inl rfl) hj hp hr
    simpa using this
  | negSucc n =>
    obtain ⟨c, t, h1, h2, h3⟩ := hne (n + 1)
    simp only [intStr] at hp ⊢
    refine readsAs_number (.inl rfl) h3 ?_
    intro rest hr
    have := jsonNumber_int (env := env) (sign := c!"-") (ds := natStr (n + 1)) (.inr rfl) (natStr_json _) hp hr
    simpa using this

theorem realText_chars {t : Str} (h : RealText t) : 'I' ∉ t ∧ ∃ c r, t = c :: r ∧ (c = '-' ∨ c ∈ c!"0123456789") := by
  obtain ⟨sign, whole, frac, exp, rfl, h1, h2, h3, h4, -⟩ := h
  have hd : ∀ ds, Digits ds → 'I' ∉ ds := fun ds h hI => by have := h.2 _ hI; revert this; decide
  constructor
  · simp only [List.mem_append, not_or]
    refine ⟨⟨⟨?_, ?_⟩, ?_⟩, ?_⟩
    · rcases h1 with rfl | rfl <;> simp
    · rcases h2 with rfl | h2
      · simp
      · exact hd _ h2.1
    · rcases h3 with rfl | ⟨ds, h, rfl⟩
      · simp
      · simpa using hd ds h
    · rcases h4 with rfl | ⟨e, s, ds, he, hs, h, rfl⟩
      · simp
      · simp only [List.mem_cons, List.mem_append, not_or]
        refine ⟨?_, ?_, hd ds h⟩
        · rcases he with rfl | rfl <;> decide
        · rcases hs with rfl | rfl | rfl <;> decide
  · rcases h1 with rfl | rfl
    · rcases h2 with rfl | ⟨⟨h2, h2'⟩, -⟩
      · exact ⟨'0', frac ++ exp, by simp, by simp⟩
      · cases whole with
        | nil => exact absurd rfl h2
        | cons c r => exact ⟨c, r ++ frac ++ exp, by simp, .inr (h2' c (by simp))⟩
    · exact ⟨'-', whole ++ frac ++ exp, by simp, .inl rfl⟩

theorem readsAs_float {env : Env} {x : PyFloat} (h : FloatText env x) : ReadsAs env (jsonFloat env x) (.float x) := by
  cases x with
  | nan => exact readsAs_atom (c := 'N') (t := c!"aN") (by simp) (fun rest _ => by simp [jsonAtom, dropPrefix?])
  | inf neg =>
    cases neg with
    | false => exact readsAs_atom (c := 'I') (t := c!"nfinity") (by simp) (fun rest _ => by simp [jsonAtom, dropPrefix?])
    | true => exact readsAs_atom (c := '-') (t := c!"Infinity") (by simp) (fun rest _ => by simp [jsonAtom, dropPrefix?])
  | fin q =>
    obtain ⟨h1, h2⟩ := h
    obtain ⟨h3, c, r, h4, h5⟩ := realText_chars h1
    simp only [jsonFloat]
    rw [h4] at h1 h2 h3 ⊢
    exact readsAs_number h5 (fun h => h3 (by simp [h])) (fun rest hr => jsonNumber_real h1 h2 hr)

theorem json_join {sep w : Str} {l : List Str} (h : l ≠ []) : joinStr sep (w :: l) = w ++ (sep ++ joinStr sep l) := by
  cases l with
  | nil => exact absurd rfl h
  | cons a r => simp [joinStr]

theorem begins_join {sep : Str} {l : List Str} (hl : l ≠ []) (h : ∀ t ∈ l, Begins t) : Begins (joinStr sep l) := by
  cases l with
  | nil => exact absurd rfl hl
  | cons a r =>
    obtain ⟨c, t, rfl, hc⟩ := h a (by simp)
    cases r with
    | nil => exact ⟨c, t, rfl, hc⟩
    | cons b r => exact ⟨c, _, by simp [joinStr]; rfl, hc⟩

theorem stops_cons {c : Char} (h : c = ',' ∨ c = ']' ∨ c = '}') (r : Str) : Stops (c :: r) := by
  intro d hd
  simp only [List.head?_cons, Option.some.injEq] at hd
  subst hd
  exact .inl h

theorem jsonItems_read {env : Env} {ps : List (Str × Val)} (hne : ps ≠ []) (h : ∀ p ∈ ps, ReadsAs env p.1 p.2) (n : Nat) (rest : Str)
    (hn : (joinStr c!", " (ps.map (·.1))).length + 1 ≤ n) :
    jsonItems env n (joinStr c!", " (ps.map (·.1)) ++ ']' :: rest) = .ok (ps.map (·.2), rest) := by
  induction ps generalizing n with
  | nil => exact absurd rfl hne
  | cons p ps ih =>
    obtain ⟨m, rfl⟩ : ∃ m, n = m + 1 := ⟨n - 1, by omega⟩
    have hp := (h p (by simp)).2
    by_cases hps : ps = []
    · subst hps
      simp only [List.map_cons, List.map_nil, joinStr] at hn ⊢
      rw [jsonItems, hp m _ (by omega) (stops_cons (by simp) _)]
      rfl
    · have hm : ps.map (·.1) ≠ [] := by simpa using hps
      simp only [List.map_cons, json_join hm, List.append_assoc] at hn ⊢
      simp only [List.length_append, List.length_cons, List.length_nil] at hn
      rw [jsonItems]
      simp only [List.cons_append, List.nil_append]
      rw [hp m _ (by omega) (stops_cons (by simp) _)]
      have hb : Begins (joinStr c!", " (ps.map (·.1))) :=
        begins_join hm (by intro t ht; obtain ⟨q, hq, rfl⟩ := List.mem_map.1 ht; exact (h q (by simp [hq])).1)
      have hw : jsonWs (' ' :: (joinStr c!", " (ps.map (·.1)) ++ ']' :: rest)) = joinStr c!", " (ps.map (·.1)) ++ ']' :: rest := by
        show jsonWs (joinStr c!", " (ps.map (·.1)) ++ ']' :: rest) = _
        exact jsonWs_begins hb
      have hi := ih hps (fun q hq => h q (by simp [hq])) m (by omega)
      have hw' : jsonWs (',' :: ' ' :: (joinStr c!", " (ps.map (·.1)) ++ ']' :: rest)) = ',' :: ' ' :: (joinStr c!", " (ps.map (·.1)) ++ ']' :: rest) := rfl
      simp only [bind, Except.bind]
      rw [hw']
      simp only [hw, hi]
      rfl

/-- The text of an entry. -/
def entryText (k t : Str) : Str := jsonQuote k ++ (c!": " ++ t)

theorem jsonPairs_step {env : Env} {k t : Str} {v : Val} (h : ReadsAs env t v) (n : Nat) (hn : t.length ≤ n) (rest : Str) (hr : Stops rest) :
    jsonPairs env (n + 1) (entryText k t ++ rest) =
      (match jsonWs rest with
      | '}' :: r => .ok ([(.str k, v)], r)
      | ',' :: r => do
        let (l, r) ← jsonPairs env n (jsonWs r)
        return ((.str k, v) :: l, r)
      | _ => jsonError) := by
  simp only [entryText, jsonQuote, List.cons_append, List.append_assoc, List.nil_append]
  rw [jsonPairs, jsonString_quote]
  have hw : jsonWs (' ' :: (t ++ rest)) = t ++ rest := by
    show jsonWs (t ++ rest) = _
    exact jsonWs_begins h.1
  have hw' : jsonWs (':' :: ' ' :: (t ++ rest)) = ':' :: ' ' :: (t ++ rest) := rfl
  simp only [bind, Except.bind]
  rw [hw']
  simp only [hw]
  rw [h.2 n rest hn hr]
  rfl

theorem jsonPairs_read {env : Env} {es : List (Str × Str × Val)} (hne : es ≠ []) (h : ∀ e ∈ es, ReadsAs env e.2.1 e.2.2) (n : Nat) (rest : Str)
    (hn : (joinStr c!", " (es.map fun e => entryText e.1 e.2.1)).length + 1 ≤ n) :
    jsonPairs env n (joinStr c!", " (es.map fun e => entryText e.1 e.2.1) ++ '}' :: rest) =
      .ok (es.map fun e => (.str e.1, e.2.2), rest) := by
  induction es generalizing n with
  | nil => exact absurd rfl hne
  | cons p ps ih =>
    obtain ⟨m, rfl⟩ : ∃ m, n = m + 1 := ⟨n - 1, by omega⟩
    have hp := h p (by simp)
    have hl : p.2.1.length ≤ (entryText p.1 p.2.1).length := by simp [entryText]; omega
    by_cases hps : ps = []
    · subst hps
      simp only [List.map_cons, List.map_nil, joinStr] at hn ⊢
      rw [jsonPairs_step hp m (by omega) _ (stops_cons (by simp) _)]
      rfl
    · have hm : (ps.map fun e => entryText e.1 e.2.1) ≠ [] := by simpa using hps
      simp only [List.map_cons, json_join hm, List.append_assoc] at hn ⊢
      simp only [List.length_append, List.length_cons, List.length_nil] at hn
      simp only [List.cons_append, List.nil_append]
      rw [jsonPairs_step hp m (by omega) _ (stops_cons (by simp) _)]
      have hb : Begins (joinStr c!", " (ps.map fun e => entryText e.1 e.2.1)) :=
        begins_join hm (by
          intro t ht
          obtain ⟨q, hq, rfl⟩ := List.mem_map.1 ht
          exact ⟨'"', q.1.flatMap jsonChar ++ '"' :: (c!": " ++ q.2.1), by simp [entryText, jsonQuote], by decide⟩)
      have hw : jsonWs (' ' :: (joinStr c!", " (ps.map fun e => entryText e.1 e.2.1) ++ '}' :: rest)) =
          joinStr c!", " (ps.map fun e => entryText e.1 e.2.1) ++ '}' :: rest := by
        show jsonWs (joinStr c!", " (ps.map fun e => entryText e.1 e.2.1) ++ '}' :: rest) = _
        exact jsonWs_begins hb
      have hi := ih hps (fun q hq => h q (by simp [hq])) m (by omega)
      have hw' : jsonWs (',' :: ' ' :: (joinStr c!", " (ps.map fun e => entryText e.1 e.2.1) ++ '}' :: rest)) =
          ',' :: ' ' :: (joinStr c!", " (ps.map fun e => entryText e.1 e.2.1) ++ '}' :: rest) := rfl
      rw [hw']
      simp only [hw, hi]
      rfl

theorem jsonKey_text {env : Env} {k : Val} {s : Str} (h : KeyText env k s) : jsonKey env k = .ok s := by
  cases h <;> rfl

theorem jsonTextL_reads {env : Env} {ps : List (Val × Val)} (h : ∀ p ∈ ps, ∃ t, jsonText env p.1 = .ok t ∧ ReadsAs env t p.2) :
    ∃ qs : List (Str × Val), jsonTextL env (ps.map (·.1)) = .ok (qs.map (·.1)) ∧ qs.map (·.2) = ps.map (·.2) ∧
      ∀ q ∈ qs, ReadsAs env q.1 q.2 := by
  induction ps with
  | nil => exact ⟨[], rfl, rfl, by simp⟩
  | cons p ps ih =>
    obtain ⟨t, h1, h2⟩ := h p (by simp)
    obtain ⟨qs, h3, h4, h5⟩ := ih (fun q hq => h q (by simp [hq]))
    refine ⟨(t, p.2) :: qs, ?_, by simp [h4], ?_⟩
    · simp [jsonTextL, h1, h3, bind, Except.bind, pure, Except.pure]
    · intro q hq
      rcases List.mem_cons.1 hq with rfl | hq
      · exact h2
      · exact h5 q hq

theorem jsonTextD_reads {env : Env} {es : List ((Val × Str) × Val × Val)} (hk : ∀ e ∈ es, KeyText env e.1.1 e.1.2)
    (h : ∀ e ∈ es, ∃ t, jsonText env e.2.1 = .ok t ∧ ReadsAs env t e.2.2) :
    ∃ qs : List (Str × Str × Val), jsonTextD env (es.map fun e => (e.1.1, e.2.1)) = .ok (qs.map fun q => entryText q.1 q.2.1) ∧
      (qs.map fun q => (q.1, q.2.2)) = (es.map fun e => (e.1.2, e.2.2)) ∧ ∀ q ∈ qs, ReadsAs env q.2.1 q.2.2 := by
  induction es with
  | nil => exact ⟨[], rfl, rfl, by simp⟩
  | cons e es ih =>
    obtain ⟨t, h1, h2⟩ := h e (by simp)
    obtain ⟨qs, h3, h4, h5⟩ := ih (fun q hq => hk q (by simp [hq])) (fun q hq => h q (by simp [hq]))
    refine ⟨(e.1.2, t, e.2.2) :: qs, ?_, by simp [h4], ?_⟩
    · simp [jsonTextD, jsonKey_text (hk e (by simp)), h1, h3, bind, Except.bind, pure, Except.pure, entryText]
    · intro q hq
      rcases List.mem_cons.1 hq with rfl | hq
      · exact h2
      · exact h5 q hq

theorem readsAs_list {env : Env} {qs : List (Str × Val)} (h : ∀ q ∈ qs, ReadsAs env q.1 q.2) :
    ReadsAs env ('[' :: (joinStr c!", " (qs.map (·.1)) ++ [']'])) (.list (qs.map (·.2))) := by
  refine ⟨⟨'[', _, rfl, by decide⟩, ?_⟩
  intro n rest hn hr
  simp only [List.length_cons, List.length_append, List.length_nil] at hn
  obtain ⟨m, rfl⟩ : ∃ m, n = m + 1 := ⟨n - 1, by omega⟩
  simp only [List.cons_append, List.append_assoc, List.nil_append]
  rw [jsonValue]
  cases qs with
  | nil => rfl
  | cons q qs =>
    have hb : Begins (joinStr c!", " ((q :: qs).map (·.1))) :=
      begins_join (by simp) (by intro t ht; obtain ⟨q', hq, rfl⟩ := List.mem_map.1 ht; exact (h q' hq).1)
    rw [jsonWs_begins hb]
    have hi := jsonItems_read (by simp) h m rest (by omega)
    obtain ⟨c, t, ht, h1, h2, h3⟩ := hb
    rw [ht] at hi ⊢
    simp only [List.cons_append] at hi ⊢
    split
    · next h => cases h; exact absurd rfl h2
    · rw [hi]; rfl

theorem readsAs_dict {env : Env} {qs : List (Str × Str × Val)} (h : ∀ q ∈ qs, ReadsAs env q.2.1 q.2.2) (hd : (qs.map (·.1)).Nodup) :
    ReadsAs env ('{' :: (joinStr c!", " (qs.map fun q => entryText q.1 q.2.1) ++ ['}'])) (.dict (qs.map fun q => (.str q.1, q.2.2))) := by
  refine ⟨⟨'{', _, rfl, by decide⟩, ?_⟩
  intro n rest hn hr
  simp only [List.length_cons, List.length_append, List.length_nil] at hn
  obtain ⟨m, rfl⟩ : ∃ m, n = m + 1 := ⟨n - 1, by omega⟩
  simp only [List.cons_append, List.append_assoc, List.nil_append]
  rw [jsonValue]
  cases qs with
  | nil => rfl
  | cons q qs =>
    have hb : Begins (joinStr c!", " ((q :: qs).map fun q => entryText q.1 q.2.1)) :=
      begins_join (by simp) (by
        intro t ht
        obtain ⟨q, hq, rfl⟩ := List.mem_map.1 ht
        exact ⟨'"', q.1.flatMap jsonChar ++ '"' :: (c!": " ++ q.2.1), by simp [entryText, jsonQuote], by decide⟩)
    rw [jsonWs_begins hb]
    have hi := jsonPairs_read (by simp) h m rest (by omega)
    have hdict : dictOf ((q :: qs).map fun q => (Val.str q.1, q.2.2)) = (q :: qs).map fun q => (Val.str q.1, q.2.2) := by
      have := ST.dictOf_str (l := (q :: qs).map fun q => (q.1, q.2.2)) (by rw [List.map_map]; exact hd)
      rw [List.map_map] at this
      exact this
    obtain ⟨c, t, ht, h1, h2, h3⟩ := hb
    rw [ht] at hi ⊢
    simp only [List.cons_append] at hi ⊢
    split
    · next h => cases h; exact absurd rfl h3
    · rw [hi]
      simp only [Except.map, hdict]

theorem carries_reads {env : Env} {v w : Val} (h : Carries env v w) : ∃ t, jsonText env v = .ok t ∧ ReadsAs env t w := by
  induction h with
  | none => exact ⟨_, rfl, readsAs_atom (c := 'n') (t := c!"ull") (by simp) (fun rest _ => by simp [jsonAtom, dropPrefix?])⟩
  | bool b =>
    cases b with
    | true => exact ⟨_, rfl, readsAs_atom (c := 't') (t := c!"rue") (by simp) (fun rest _ => by simp [jsonAtom, dropPrefix?])⟩
    | false => exact ⟨_, rfl, readsAs_atom (c := 'f') (t := c!"alse") (by simp) (fun rest _ => by simp [jsonAtom, dropPrefix?])⟩
  | int i => exact ⟨_, rfl, readsAs_int env i⟩
  | float h => exact ⟨_, rfl, readsAs_float h⟩
  | str s =>
    refine ⟨jsonQuote s, rfl, ⟨'"', _, rfl, by decide⟩, ?_⟩
    intro n rest hn _
    obtain ⟨m, rfl⟩ : ∃ m, n = m + 1 := ⟨n - 1, by simp [jsonQuote] at hn; omega⟩
    simp only [jsonQuote, List.cons_append, List.append_assoc, List.nil_append]
    rw [jsonValue, jsonString_quote]
    rfl
  | list _ ih =>
    obtain ⟨qs, h1, h2, h3⟩ := jsonTextL_reads ih
    refine ⟨_, by rw [jsonText, h1]; rfl, ?_⟩
    rw [← h2]
    exact readsAs_list h3
  | tuple _ ih =>
    obtain ⟨qs, h1, h2, h3⟩ := jsonTextL_reads ih
    refine ⟨_, by rw [jsonText, h1]; rfl, ?_⟩
    rw [← h2]
    exact readsAs_list h3
  | @dict es hn hk _ ih =>
    obtain ⟨qs, h1, h2, h3⟩ := jsonTextD_reads hk ih
    refine ⟨_, by rw [jsonText, h1]; rfl, ?_⟩
    have e1 : (es.map fun e => (Val.str e.1.2, e.2.2)) = qs.map fun q => (Val.str q.1, q.2.2) := by
      have := congrArg (List.map fun p : Str × Val => (Val.str p.1, p.2)) h2
      simpa [List.map_map, Function.comp_def] using this.symm
    rw [e1]
    apply readsAs_dict h3
    have := congrArg (List.map fun p : Str × Val => p.1) h2
    simp only [List.map_map, Function.comp_def] at this
    rw [this]
    exact hn

/-- C56. A value JSON carries is written, and what is written is read back: tuples as lists, keys as their texts, everything
else as it was. -/
theorem C56_round_trip (env : Env) {v w : Val} (h : Carries env v w) :
    ∃ t, jsonSerialize env v = .ok t ∧ jsonUnserialize env t = .ok w := by
  obtain ⟨t, h1, hb, h2⟩ := carries_reads h
  refine ⟨t, h1, ?_⟩
  have hw : jsonWs t = t := by simpa using jsonWs_begins (r := []) hb
  have := h2 (t.length + 1) [] (by omega) (by intro c hc; cases hc)
  rw [List.append_nil] at this
  rw [jsonUnserialize, hw, this]
  rfl

/-- C56. Two values with the same text are read back as the same value. -/
theorem C56_injective (env : Env) {v v' w w' : Val} (h : Carries env v w) (h' : Carries env v' w')
    (he : jsonSerialize env v = jsonSerialize env v') : w = w' := by
  obtain ⟨t, h1, h2⟩ := C56_round_trip env h
  obtain ⟨t', h1', h2'⟩ := C56_round_trip env h'
  rw [h1, h1'] at he
  cases he
  rw [h2] at h2'
  cases h2'
  rfl

/-! ### which values are written -/

theorem jsonKey_ok {env : Env} {k : Val} : (∃ s, jsonKey env k = .ok s) ↔ Json.Keyable k := by
  cases k <;> simp [jsonKey, Json.Keyable]

theorem map_ok_iff {α β : Type} {f : α → β} {x : Except Exn α} : (∃ b, x.map f = .ok b) ↔ ∃ a, x = .ok a := by
  cases x <;> simp [Except.map]

mutual
theorem jsonText_ok (env : Env) : ∀ v : Val, (∃ t, jsonText env v = .ok t) ↔ Json.Writable v
  | .none => ⟨fun _ => .none, fun _ => ⟨_, rfl⟩⟩
  | .bool b => ⟨fun _ => .bool b, fun _ => ⟨_, rfl⟩⟩
  | .int i => ⟨fun _ => .int i, fun _ => ⟨_, rfl⟩⟩
  | .float x => ⟨fun _ => .float x, fun _ => ⟨_, rfl⟩⟩
  | .str s => ⟨fun _ => .str s, fun _ => ⟨_, rfl⟩⟩
  | .list l => by
    rw [jsonText, map_ok_iff, jsonTextL_ok env l]
    exact ⟨.list, fun h => by cases h; assumption⟩
  | .tuple l => by
    rw [jsonText, map_ok_iff, jsonTextL_ok env l]
    exact ⟨.tuple, fun h => by cases h; assumption⟩
  | .dict d => by
    rw [jsonText, map_ok_iff, jsonTextD_ok env d]
    exact ⟨fun h => .dict (fun e he => (h e he).1) (fun e he => (h e he).2), fun h => by
      cases h with
      | dict h1 h2 => exact fun e he => ⟨h1 e he, h2 e he⟩⟩
  | .bytes b => ⟨fun ⟨_, h⟩ => (by cases h), fun h => (by cases h)⟩
  | .date _ => ⟨fun ⟨_, h⟩ => (by cases h), fun h => (by cases h)⟩
  | .time _ => ⟨fun ⟨_, h⟩ => (by cases h), fun h => (by cases h)⟩
  | .datetime _ => ⟨fun ⟨_, h⟩ => (by cases h), fun h => (by cases h)⟩
  | .decimal _ => ⟨fun ⟨_, h⟩ => (by cases h), fun h => (by cases h)⟩
  | .field _ => ⟨fun ⟨_, h⟩ => (by cases h), fun h => (by cases h)⟩
  | .surr _ => ⟨fun ⟨_, h⟩ => (by cases h), fun h => (by cases h)⟩
  | .obj _ => ⟨fun ⟨_, h⟩ => (by cases h), fun h => (by cases h)⟩
  | .exc .. => ⟨fun ⟨_, h⟩ => (by cases h), fun h => (by cases h)⟩
theorem jsonTextL_ok (env : Env) : ∀ l : List Val, (∃ ts, jsonTextL env l = .ok ts) ↔ ∀ v ∈ l, Json.Writable v
  | [] => by simp [jsonTextL]
  | v :: r => by
    have h1 := jsonText_ok env v
    have h2 := jsonTextL_ok env r
    rw [List.forall_mem_cons, ← h1, ← h2, jsonTextL]
    cases jsonText env v <;> cases jsonTextL env r <;> simp [bind, Except.bind, pure, Except.pure]
theorem jsonTextD_ok (env : Env) : ∀ d : List (Val × Val), (∃ ts, jsonTextD env d = .ok ts) ↔ ∀ e ∈ d, Json.Keyable e.1 ∧ Json.Writable e.2
  | [] => by simp [jsonTextD]
  | (k, v) :: r => by
    have h0 := jsonKey_ok (env := env) (k := k)
    have h1 := jsonText_ok env v
    have h2 := jsonTextD_ok env r
    rw [List.forall_mem_cons, ← h0, ← h1, ← h2, jsonTextD]
    cases jsonKey env k <;> cases jsonText env v <;> cases jsonTextD env r <;> simp [bind, Except.bind, pure, Except.pure]
end

/-- C56. Exactly these values are written: None, booleans, numbers, texts, and lists, tuples and dicts of them whose keys are
None, booleans, numbers or texts. -/
theorem C56_written_iff (env : Env) (v : Val) : (∃ t, jsonSerialize env v = .ok t) ↔ Json.Writable v := jsonText_ok env v

/-- C56. Whatever is carried can be written. -/
theorem C56_carried_written (env : Env) {v w : Val} (h : Carries env v w) : Json.Writable v :=
  (C56_written_iff env v).1 ((C56_round_trip env h).elim fun t ht => ⟨t, ht.1⟩)

/-! ### what is written -/

/-- Printable ASCII. -/
def Printable (s : Str) : Prop := ∀ c ∈ s, 32 ≤ c.toNat ∧ c.toNat ≤ 126

theorem printable_append {a b : Str} : Printable (a ++ b) ↔ Printable a ∧ Printable b := by
  simp only [Printable, List.mem_append]
  exact ⟨fun h => ⟨fun c hc => h c (.inl hc), fun c hc => h c (.inr hc)⟩, fun ⟨h1, h2⟩ c hc => hc.elim (h1 c) (h2 c)⟩

theorem printable_cons {a : Char} {b : Str} : Printable (a :: b) ↔ (32 ≤ a.toNat ∧ a.toNat ≤ 126) ∧ Printable b := by
  simp [Printable]

theorem printable_hexLower : ∀ n : Fin 16, 32 ≤ (hexLower n.val).toNat ∧ (hexLower n.val).toNat ≤ 126 := by decide

theorem printable_hex (n : Nat) : Printable (jsonHex n) := by
  have h : ∀ m, 32 ≤ (hexLower (m % 16)).toNat ∧ (hexLower (m % 16)).toNat ≤ 126 :=
    fun m => printable_hexLower ⟨m % 16, Nat.mod_lt _ (by decide)⟩
  simp only [jsonHex, printable_cons]
  refine ⟨by decide, by decide, h _, h _, h _, h _, by simp [Printable]⟩

theorem printable_char (c : Char) : Printable (jsonChar c) := by
  unfold jsonChar
  repeat' split
  all_goals first
    | (simp only [Printable]; decide)
    | (simp only [printable_append]; exact ⟨printable_hex _, printable_hex _⟩)
    | exact printable_hex _
    | (rename_i h; simpa [Printable] using h)

theorem printable_quote (s : Str) : Printable (jsonQuote s) := by
  rw [jsonQuote, printable_cons, printable_append]
  refine ⟨by decide, ?_, by simp only [Printable]; decide⟩
  intro c hc
  obtain ⟨a, -, ha⟩ := List.mem_flatMap.1 hc
  exact printable_char a c ha

theorem printable_join {sep : Str} {l : List Str} (hs : Printable sep) (h : ∀ t ∈ l, Printable t) : Printable (joinStr sep l) := by
  induction l with
  | nil => simp [joinStr, Printable]
  | cons a r ih =>
    by_cases hr : r = []
    · subst hr; exact h a (by simp)
    · rw [json_join hr, printable_append, printable_append]
      exact ⟨h a (by simp), hs, ih (fun t ht => h t (by simp [ht]))⟩

theorem printable_digits {ds : Str} (h : ∀ c ∈ ds, c ∈ c!"0123456789") : Printable ds := by
  intro c hc
  have : ∀ c ∈ c!"0123456789", 32 ≤ c.toNat ∧ c.toNat ≤ 126 := by decide
  exact this c (h c hc)

theorem printable_real {t : Str} (h : RealText t) : Printable t := by
  obtain ⟨sign, whole, frac, exp, rfl, h1, h2, h3, h4, -⟩ := h
  simp only [printable_append]
  refine ⟨⟨⟨?_, ?_⟩, ?_⟩, ?_⟩
  · rcases h1 with rfl | rfl <;> (simp only [Printable]; decide)
  · rcases h2 with rfl | h2
    · simp only [Printable]; decide
    · exact printable_digits h2.1.2
  · rcases h3 with rfl | ⟨ds, h, rfl⟩
    · simp [Printable]
    · exact printable_cons.2 ⟨by decide, printable_digits h.2⟩
  · rcases h4 with rfl | ⟨e, s, ds, he, hs, h, rfl⟩
    · simp [Printable]
    · refine printable_cons.2 ⟨by rcases he with rfl | rfl <;> decide, printable_append.2 ⟨?_, printable_digits h.2⟩⟩
      rcases hs with rfl | rfl | rfl <;> (simp only [Printable]; decide)

theorem printable_int (i : Int) : Printable (intStr i) := by
  have h : ∀ n, Printable (natStr n) := by
    intro n
    rcases natStr_json n with h | h
    · rw [h]; simp only [Printable]; decide
    · exact printable_digits h.1.2
  cases i with
  | ofNat n => exact h n
  | negSucc n => exact printable_cons.2 ⟨by decide, h _⟩

/-- C56. The text of a value is printable ASCII on one line. -/
theorem C56_printable (env : Env) {v w : Val} (h : Carries env v w) {t : Str} (ht : jsonSerialize env v = .ok t) :
    ∀ c ∈ t, 32 ≤ c.toNat ∧ c.toNat ≤ 126 := by
  show Printable t
  change jsonText env v = .ok t at ht
  have hl : ∀ {l : List Val} {ts}, (∀ v ∈ l, ∀ t, jsonText env v = .ok t → Printable t) → jsonTextL env l = .ok ts →
      ∀ t ∈ ts, Printable t := by
    intro l
    induction l with
    | nil => intro ts _ h; cases h; simp
    | cons v r ih =>
      intro ts hv h
      rw [jsonTextL] at h
      cases h1 : jsonText env v with
      | error e => rw [h1] at h; cases h
      | ok t =>
        cases h2 : jsonTextL env r with
        | error e => rw [h1, h2] at h; cases h
        | ok ts' =>
          rw [h1, h2] at h; cases h
          intro x hx
          rcases List.mem_cons.1 hx with rfl | hx
          · exact hv v (by simp) x h1
          · exact ih (fun v hv' => hv v (by simp [hv'])) h2 x hx
  have hlist : ∀ {ps : List (Val × Val)}, (∀ p ∈ ps, ∀ t, jsonText env p.1 = .ok t → Printable t) → ∀ {t},
      (jsonTextL env (ps.map (·.1))).map (fun ts => '[' :: (joinStr c!", " ts ++ [']'])) = .ok t → Printable t := by
    intro ps ih t ht
    cases h1 : jsonTextL env (ps.map (·.1)) with
    | error e => rw [h1] at ht; cases ht
    | ok ts =>
      rw [h1] at ht; cases ht
      have := hl (by intro v hv; obtain ⟨p, hp, rfl⟩ := List.mem_map.1 hv; exact ih p hp) h1
      exact printable_cons.2 ⟨by decide, printable_append.2 ⟨printable_join (by simp only [Printable]; decide) this,
        by simp only [Printable]; decide⟩⟩
  induction h generalizing t with
  | none => cases ht; simp only [Printable]; decide
  | bool b => cases ht; cases b <;> (simp only [Printable]; decide)
  | int i => cases ht; exact printable_int i
  | @float x hx =>
    cases ht
    cases x with
    | fin q => exact printable_real hx.1
    | inf b => cases b <;> (simp only [Printable, jsonFloat]; decide)
    | nan => simp only [Printable, jsonFloat]; decide
  | str s => cases ht; exact printable_quote s
  | list _ ih => rw [jsonText] at ht; exact hlist (fun p hp t h => ih p hp h) ht
  | tuple _ ih => rw [jsonText] at ht; exact hlist (fun p hp t h => ih p hp h) ht
  | @dict es hn hk _ ih =>
    clear hn
    rw [jsonText] at ht
    have key : ∀ {es : List ((Val × Str) × Val × Val)} {ts}, (∀ e ∈ es, KeyText env e.1.1 e.1.2) →
        (∀ e ∈ es, ∀ t, jsonText env e.2.1 = .ok t → Printable t) →
        jsonTextD env (es.map fun e => (e.1.1, e.2.1)) = .ok ts → ∀ t ∈ ts, Printable t := by
      intro es
      induction es with
      | nil => intro ts _ _ h; cases h; simp
      | cons e r ih =>
        intro ts hk hv h
        rw [List.map_cons, jsonTextD, jsonKey_text (hk e (by simp))] at h
        cases h1 : jsonText env e.2.1 with
        | error e => rw [h1] at h; cases h
        | ok t =>
          cases h2 : jsonTextD env (r.map fun e => (e.1.1, e.2.1)) with
          | error e => rw [h1, h2] at h; cases h
          | ok ts' =>
            rw [h1, h2] at h; cases h
            intro x hx
            rcases List.mem_cons.1 hx with rfl | hx
            · exact printable_append.2 ⟨printable_quote _, printable_append.2 ⟨by simp only [Printable]; decide, hv e (by simp) t h1⟩⟩
            · exact ih (fun e he => hk e (by simp [he])) (fun v hv' => hv v (by simp [hv'])) h2 x hx
    cases h1 : jsonTextD env (es.map fun e => (e.1.1, e.2.1)) with
    | error e => rw [h1] at ht; cases ht
    | ok ts =>
      rw [h1] at ht; cases ht
      have := key hk (fun e he t h => ih e he h) h1
      exact printable_cons.2 ⟨by decide, printable_append.2 ⟨printable_join (by simp only [Printable]; decide) this,
        by simp only [Printable]; decide⟩⟩

/-- C56. Keys that become the same text collapse: the last entry wins. -/
theorem C56_keys_collapse (env : Env) :
    jsonSerialize env (.dict [(.int 1, .str c!"a"), (.str c!"1", .str c!"b")]) = .ok c!"{\"1\": \"a\", \"1\": \"b\"}" ∧
    jsonUnserialize env c!"{\"1\": \"a\", \"1\": \"b\"}" = .ok (.dict [(.str c!"1", .str c!"b")]) :=
  ⟨rfl, rfl⟩

/-- `{'a': (1, None), True: 'ü'}` -/
example (env : Env) : Carries env
    (.dict [(.str c!"a", .tuple [.int 1, .none]), (.bool true, .str c!"ü")])
    (.dict [(.str c!"a", .list [.int 1, .none]), (.str c!"true", .str c!"ü")]) :=
  .dict (es := [((.str c!"a", c!"a"), .tuple [.int 1, .none], .list [.int 1, .none]),
      ((.bool true, c!"true"), .str c!"ü", .str c!"ü")])
    (by decide)
    (by
      intro e he
      rcases List.mem_cons.1 he with rfl | he
      · exact .str _
      · rw [List.mem_singleton.1 he]; exact .yes)
    (by
      intro e he
      rcases List.mem_cons.1 he with rfl | he
      · refine .tuple (ps := [(.int 1, .int 1), (.none, .none)]) ?_
        intro p hp
        rcases List.mem_cons.1 hp with rfl | hp
        · exact .int 1
        · rw [List.mem_singleton.1 hp]; exact .none
      · rw [List.mem_singleton.1 he]; exact .str _)

example (env : Env) : jsonSerialize env (.dict [(.str c!"a", .tuple [.int 1, .none]), (.bool true, .str c!"ü")]) =
    .ok c!"{\"a\": [1, null], \"true\": \"\\u00fc\"}" := rfl

end Scheme
