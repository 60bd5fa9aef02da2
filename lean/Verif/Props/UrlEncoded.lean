import Verif.Model.UrlEncoded
import Verif.Props.StructuredText

/-! C41: the url-encoded format. -/

namespace Scheme

/-! ### UTF-8 -/

theorem byteOf_val {n : Nat} (h : n < 256) : (byteOf n).val = n := Nat.mod_eq_of_lt h

theorem charIn_char {lo hi : Nat} {c : Char} (h1 : lo ≤ c.toNat) (h2 : c.toNat < hi) : charIn lo hi c.toNat = some c := by
  unfold charIn
  rw [if_pos ⟨h1, h2, c.valid⟩, Char.ofNat_toNat]

theorem charIn_char' {lo hi n : Nat} {c : Char} (hn : n = c.toNat) (h1 : lo ≤ c.toNat) (h2 : c.toNat < hi) :
    charIn lo hi n = some c := by subst hn; exact charIn_char h1 h2

theorem char_lt (c : Char) : c.toNat < 1114112 := by
  rcases c.valid with h | ⟨_, h⟩
  · exact Nat.lt_trans h (by decide)
  · exact h

theorem isCont_byteOf (n : Nat) (h : n < 64) : isCont (byteOf (128 + n)) = true := by
  have := byteOf_val (n := 128 + n) (by omega)
  simp [isCont, this]; omega

theorem utf8Dec_char (c : Char) (r : List Byte) : utf8Dec (utf8Char c ++ r) = c :: utf8Dec r := by
  have hlt := char_lt c
  unfold utf8Char
  simp only
  split
  · rename_i h
    have hv := byteOf_val (n := c.toNat) (by omega)
    rcases r with _ | ⟨x, _ | ⟨y, _ | ⟨z, r⟩⟩⟩ <;> simp [utf8Dec, hv, h]
  · split
    · rename_i h1 h2
      have ha := byteOf_val (n := 192 + c.toNat / 64) (by omega)
      have hb := byteOf_val (n := 128 + c.toNat % 64) (by omega)
      have hc := isCont_byteOf (c.toNat % 64) (by omega)
      rw [List.cons_append, List.cons_append, List.nil_append]
      have hcond : (decide (192 ≤ 192 + c.toNat / 64) && decide (192 + c.toNat / 64 < 224) && isCont (byteOf (128 + c.toNat % 64))) = true := by
        simp [hc]; omega
      rcases r with _ | ⟨x, _ | ⟨y, r⟩⟩ <;> first | rw [utf8Dec.eq_3] | rw [utf8Dec.eq_4] | rw [utf8Dec.eq_5]
      all_goals rw [ha, if_neg (by omega), if_pos hcond, hb, charIn_char' (c := c) (by omega) (by omega) (by omega)]
    · split
      · rename_i h1 h2 h3
        have ha := byteOf_val (n := 224 + c.toNat / 4096) (by omega)
        have hb := byteOf_val (n := 128 + c.toNat / 64 % 64) (by omega)
        have hc := byteOf_val (n := 128 + c.toNat % 64) (by omega)
        have hbc := isCont_byteOf (c.toNat / 64 % 64) (by omega)
        have hcc := isCont_byteOf (c.toNat % 64) (by omega)
        rw [List.cons_append, List.cons_append, List.cons_append, List.nil_append]
        have hcond : (decide (192 ≤ 224 + c.toNat / 4096) && decide (224 + c.toNat / 4096 < 224) && isCont (byteOf (128 + c.toNat / 64 % 64))) = false := by
          simp; omega
        have hcond2 : (decide (224 ≤ 224 + c.toNat / 4096) && decide (224 + c.toNat / 4096 < 240) && isCont (byteOf (128 + c.toNat / 64 % 64)) &&
            isCont (byteOf (128 + c.toNat % 64))) = true := by
          simp [hbc, hcc]; omega
        rcases r with _ | ⟨x, r⟩ <;> first | rw [utf8Dec.eq_4] | rw [utf8Dec.eq_5]
        all_goals
          rw [ha, if_neg (by omega), if_neg (by rw [hcond]; simp)]
          simp only
          rw [if_pos hcond2, hb, hc, charIn_char' (c := c) (by omega) (by omega) (by omega)]
      · rename_i h1 h2 h3
        have ha := byteOf_val (n := 240 + c.toNat / 262144) (by omega)
        have hb := byteOf_val (n := 128 + c.toNat / 4096 % 64) (by omega)
        have hc := byteOf_val (n := 128 + c.toNat / 64 % 64) (by omega)
        have hd := byteOf_val (n := 128 + c.toNat % 64) (by omega)
        have hbc := isCont_byteOf (c.toNat / 4096 % 64) (by omega)
        have hcc := isCont_byteOf (c.toNat / 64 % 64) (by omega)
        have hdc := isCont_byteOf (c.toNat % 64) (by omega)
        rw [List.cons_append, List.cons_append, List.cons_append, List.cons_append, List.nil_append, utf8Dec.eq_5, ha, if_neg (by omega)]
        have hcond : (decide (192 ≤ 240 + c.toNat / 262144) && decide (240 + c.toNat / 262144 < 224) && isCont (byteOf (128 + c.toNat / 4096 % 64))) = false := by
          simp; omega
        rw [if_neg (by rw [hcond]; simp)]
        simp only
        have hcond2 : (decide (224 ≤ 240 + c.toNat / 262144) && decide (240 + c.toNat / 262144 < 240) && isCont (byteOf (128 + c.toNat / 4096 % 64)) &&
            isCont (byteOf (128 + c.toNat / 64 % 64))) = false := by
          simp; omega
        rw [if_neg (by rw [hcond2]; simp)]
        simp only
        have hcond3 : (decide (240 ≤ 240 + c.toNat / 262144) && isCont (byteOf (128 + c.toNat / 4096 % 64)) &&
            isCont (byteOf (128 + c.toNat / 64 % 64)) && isCont (byteOf (128 + c.toNat % 64))) = true := by
          simp [hbc, hcc, hdc]
        rw [if_pos hcond3, hb, hc, hd, charIn_char' (c := c) (by omega) (by omega) (by omega)]

/-- Decoding undoes encoding. -/
theorem utf8_roundtrip (s : Str) : utf8Dec (utf8Enc s) = s := by
  induction s with
  | nil => rfl
  | cons c r ih => rw [utf8Enc, List.flatMap_cons, utf8Dec_char]; exact congrArg _ ih

/-! ### Percent encoding -/

theorem urlSafe_char : ∀ b : Byte, urlSafe b.val = true → isAscii (Char.ofNat b.val) = true ∧ byteOf (Char.ofNat b.val).toNat = b ∧
    Char.ofNat b.val ≠ '%' ∧ Char.ofNat b.val ≠ '+' ∧ Char.ofNat b.val ≠ '=' ∧ Char.ofNat b.val ≠ '&' ∧ Char.ofNat b.val ≠ ';' := by
  decide +kernel

theorem hexUpper_char : ∀ n : Fin 16, hexVal (hexUpper n.val) = some n.val ∧ hexUpper n.val ≠ '+' ∧ hexUpper n.val ≠ '=' ∧
    hexUpper n.val ≠ '&' ∧ hexUpper n.val ≠ ';' ∧ isAscii (hexUpper n.val) = true := by
  decide +kernel

theorem unquoteRuns_char (acc : List Byte) {c : Char} (r : Str) (h : isAscii c = true) (h' : c ≠ '%') :
    unquoteRuns acc (c :: r) = unquoteRuns (acc ++ [byteOf c.toNat]) r := by
  rw [unquoteRuns.eq_3 _ _ _ (fun _ _ _ h => absurd h h'), if_pos h]

theorem quoteByte_cases (b : Byte) : (b.val = 32 ∧ quoteByte b = ['+']) ∨ (urlSafe b.val = true ∧ quoteByte b = [Char.ofNat b.val]) ∨
    quoteByte b = ['%', hexUpper (b.val / 16), hexUpper (b.val % 16)] := by
  unfold quoteByte
  split
  · exact .inl ⟨by assumption, rfl⟩
  · split
    · exact .inr (.inl ⟨by assumption, rfl⟩)
    · exact .inr (.inr rfl)

theorem hexUpper_byte (b : Byte) : (hexVal (hexUpper (b.val / 16)) = some (b.val / 16) ∧ hexUpper (b.val / 16) ≠ '+' ∧
    hexUpper (b.val / 16) ≠ '=' ∧ hexUpper (b.val / 16) ≠ '&' ∧ hexUpper (b.val / 16) ≠ ';' ∧ isAscii (hexUpper (b.val / 16)) = true) ∧
    (hexVal (hexUpper (b.val % 16)) = some (b.val % 16) ∧ hexUpper (b.val % 16) ≠ '+' ∧ hexUpper (b.val % 16) ≠ '=' ∧
      hexUpper (b.val % 16) ≠ '&' ∧ hexUpper (b.val % 16) ≠ ';' ∧ isAscii (hexUpper (b.val % 16)) = true) :=
  ⟨hexUpper_char ⟨b.val / 16, by omega⟩, hexUpper_char ⟨b.val % 16, by omega⟩⟩

theorem unquoteRuns_bytes (bs : List Byte) : ∀ acc, unquoteRuns acc (plusToBlank (bs.flatMap quoteByte)) = utf8Dec (acc ++ bs) := by
  induction bs with
  | nil => intro acc; simp [plusToBlank, unquoteRuns]
  | cons b r ih =>
    intro acc
    rw [List.flatMap_cons]
    unfold plusToBlank at ih ⊢
    rw [List.map_append]
    have hfin : ∀ x, x = b → unquoteRuns (acc ++ [x]) (List.map (fun c => if c = '+' then ' ' else c) (r.flatMap quoteByte)) = utf8Dec (acc ++ b :: r) := by
      rintro x rfl
      rw [ih]; simp
    rcases quoteByte_cases b with ⟨h, he⟩ | ⟨h, he⟩ | he
    · rw [he, List.map_cons, if_pos rfl, List.map_nil, List.cons_append, List.nil_append, unquoteRuns_char _ _ rfl (by decide)]
      exact hfin _ (Fin.ext (by rw [h]; rfl))
    · have hs := urlSafe_char b h
      rw [he, List.map_cons, if_neg hs.2.2.2.1, List.map_nil, List.cons_append, List.nil_append, unquoteRuns_char _ _ hs.1 hs.2.2.1]
      exact hfin _ hs.2.1
    · have hx := hexUpper_byte b
      rw [he]
      simp only [List.map_cons, List.map_nil, hx.1.2.1, hx.2.2.1, if_false, List.cons_append, List.nil_append]
      rw [if_neg (by decide), unquoteRuns, hx.1.1, hx.2.1]
      exact hfin _ (Fin.ext (by rw [byteOf_val (by omega)]; omega))

theorem utf8Dec_ascii {t : Str} (h : ∀ c ∈ t, isAscii c = true) : utf8Dec (t.map fun c => byteOf c.toNat) = t := by
  have : utf8Enc t = t.map fun c => byteOf c.toNat := by
    induction t with
    | nil => rfl
    | cons c r ih =>
      have hc : c.toNat < 128 := by simpa [isAscii] using h c (List.mem_cons_self ..)
      rw [utf8Enc, List.flatMap_cons, utf8Char]
      simp only [if_pos hc, List.map_cons, List.cons_append, List.nil_append]
      exact congrArg _ (ih fun c hc => h c (List.mem_cons_of_mem _ hc))
  rw [← this, utf8_roundtrip]

theorem unquoteRuns_plain (t : Str) : ∀ acc, (∀ c ∈ t, isAscii c = true ∧ c ≠ '%') →
    unquoteRuns acc t = utf8Dec (acc ++ t.map fun c => byteOf c.toNat) := by
  induction t with
  | nil => intro acc _; simp [unquoteRuns]
  | cons c r ih =>
    intro acc h
    have hc := h c (List.mem_cons_self ..)
    rw [unquoteRuns_char _ _ hc.1 hc.2, ih _ fun c hc => h c (List.mem_cons_of_mem _ hc)]
    simp

theorem unquote_ascii {t : Str} (h : ∀ c ∈ t, isAscii c = true) : unquote t = unquoteRuns [] t := by
  unfold unquote
  split
  · rfl
  · rename_i hp
    rw [unquoteRuns_plain t [] fun c hc => ⟨h c hc, fun he => hp (by subst he; simpa using hc)⟩, List.nil_append, utf8Dec_ascii h]

theorem quotePlus_mem {s : Str} {c : Char} (h : c ∈ quotePlus s) : isAscii c = true ∧ c ≠ '=' ∧ c ≠ '&' ∧ c ≠ ';' := by
  obtain ⟨b, -, hc⟩ := List.mem_flatMap.1 h
  rcases quoteByte_cases b with ⟨-, he⟩ | ⟨h, he⟩ | he
  · rw [he, List.mem_singleton] at hc; subst hc; decide
  · have hs := urlSafe_char b h
    rw [he, List.mem_singleton] at hc; subst hc
    exact ⟨hs.1, hs.2.2.2.2.1, hs.2.2.2.2.2.1, hs.2.2.2.2.2.2⟩
  · have hx := hexUpper_byte b
    rw [he] at hc
    simp only [List.mem_cons, List.not_mem_nil, or_false] at hc
    rcases hc with rfl | rfl | rfl
    · decide
    · exact ⟨hx.1.2.2.2.2.2, hx.1.2.2.1, hx.1.2.2.2.1, hx.1.2.2.2.2.1⟩
    · exact ⟨hx.2.2.2.2.2.2, hx.2.2.2.1, hx.2.2.2.2.1, hx.2.2.2.2.2.1⟩

/-- Any text survives percent encoding. -/
theorem unquote_quote (s : Str) : unquote (plusToBlank (quotePlus s)) = s := by
  rw [unquote_ascii]
  · rw [quotePlus, unquoteRuns_bytes, List.nil_append, utf8_roundtrip]
  · intro c hc
    obtain ⟨x, hx, rfl⟩ := List.mem_map.1 hc
    split
    · rfl
    · exact (quotePlus_mem hx).1

theorem quotePlus_nil {s : Str} : quotePlus s = [] ↔ s = [] := by
  constructor
  · intro h
    have := unquote_quote s
    rw [h] at this
    exact this.symm
  · rintro rfl; rfl

theorem splitEq_append {k t : Str} (h : '=' ∉ k) : splitEq (k ++ '=' :: t) = some (k, t) := by
  induction k with
  | nil => rfl
  | cons c r ih =>
    rw [List.mem_cons, not_or] at h
    rw [List.cons_append, splitEq, ih h.2]
    simp [Ne.symm h.1]

theorem splitOn_none {c : Char} {s : Str} (h : c ∉ s) : splitOn c s = [s] := by
  have := splitOn_join (c := c) (l := [s]) (by simp) (by simpa using h)
  simpa [joinStr] using this

/-- Decoding an encoded query gives the pairs whose value is not empty. -/
theorem parseQsl_urlencode (data : List (Str × Str)) : parseQsl (urlencode data) = data.filter fun p => !p.2.isEmpty := by
  have hpiece : ∀ p : Str × Str, ('&' ∉ quotePlus p.1 ++ '=' :: quotePlus p.2) ∧ (';' ∉ quotePlus p.1 ++ '=' :: quotePlus p.2) := by
    intro p
    constructor <;>
    · intro h
      rcases List.mem_append.1 h with h | h
      · exact absurd rfl (by first | exact (quotePlus_mem h).2.2.1 | exact (quotePlus_mem h).2.2.2)
      · rcases List.mem_cons.1 h with h | h
        · exact absurd h (by decide)
        · exact absurd rfl (by first | exact (quotePlus_mem h).2.2.1 | exact (quotePlus_mem h).2.2.2)
  unfold parseQsl
  by_cases hd : data = []
  · subst hd; rfl
  · have h1 : splitOn '&' (urlencode data) = data.map fun p => quotePlus p.1 ++ '=' :: quotePlus p.2 := by
      refine splitOn_join (by simpa using hd) ?_
      intro w hw
      obtain ⟨p, -, rfl⟩ := List.mem_map.1 hw
      exact (hpiece p).1
    rw [h1]
    clear h1 hd
    induction data with
    | nil => rfl
    | cons p r ih =>
      rw [List.map_cons, List.flatMap_cons, splitOn_none (hpiece p).2, List.cons_append, List.nil_append, List.filterMap_cons,
        splitEq_append fun h => (quotePlus_mem h).2.1 rfl]
      simp only [List.filterMap_cons, List.filter_cons]
      rw [ih]
      by_cases hp : p.2 = []
      · simp [hp, quotePlus_nil.2 rfl]
      · have h1 : (quotePlus p.2).isEmpty = false := by
          cases hq : quotePlus p.2 with
          | nil => exact absurd (quotePlus_nil.1 hq) hp
          | cons => rfl
        have h2 : p.2.isEmpty = false := by cases hq : p.2 with
          | nil => exact absurd hq hp
          | cons => rfl
        simp [h1, h2, unquote_quote]

/-! ### The format -/

/-- The empty text. -/
def isBlank : Val → Bool
  | .str [] => true
  | _ => false

/-- Values that a parameter carries: containers that structured text carries, and single texts other than the
reserved words. -/
def UrlOk (env : Env) (v : Val) : Prop :=
  v = .none ∨ (∃ b, v = .bool b) ∨ (∃ s, v = .str s ∧ s ≠ [] ∧ ¬ Reserved env.u s) ∨ (IsContainer v ∧ Writable env false v)

theorem urlOk_read {env : Env} {v : Val} (h : UrlOk env v) :
    ∃ t w, stContent env.str v = some t ∧ t ≠ [] ∧ stUnserialize env false (.str t) = .ok w ∧ SameData v w := by
  have hne : ∀ {t : Str} {w}, stUnserialize env false (.str t) = .ok w → t ≠ [] := by rintro t w h rfl; cases h
  rcases h with rfl | ⟨b, rfl⟩ | ⟨s, rfl, h1, h2⟩ | ⟨h1, h2⟩
  · exact ⟨_, _, rfl, by decide, rfl, .refl _⟩
  · obtain ⟨t, ht, h⟩ := (C39_scalars env false b 0).1
    exact ⟨t, _, ht, hne h, h, .refl _⟩
  · obtain ⟨t, ht, h⟩ := (C39_roundtrip env s).2 ⟨h1, h2⟩
    exact ⟨t, _, ht, hne h, h, .refl _⟩
  · obtain ⟨t, w, ht, h, hs⟩ := C40_roundtrip env false v h1 h2
    exact ⟨t, w, ht, hne h, h, hs⟩

/-- C41. Encoding a mapping and decoding it returns the mapping, in order, without the entries whose value is the
empty text.  Keys are arbitrary texts. -/
theorem C41_roundtrip (env : Env) (d : List (Val × Val)) (hn : (d.map (·.1)).Nodup) (hk : ∀ e ∈ d, ∃ k, e.1 = .str k)
    (hv : ∀ e ∈ d, UrlOk env e.2 ∨ e.2 = .str []) :
    ∃ t w, urlSerialize env (.dict d) = some (.ok t) ∧ urlUnserialize env (.str t) = .ok (.dict w) ∧
      SameEntries (d.filter fun e => !isBlank e.2) w := by
  suffices hs : ∀ acc : List (Val × Val), (∀ e ∈ acc, ∃ k, e.1 = .str k) → ((acc ++ d).map (·.1)).Nodup →
      ∃ data w, urlData env d = some data ∧ urlLoop env acc (data.filter fun p => !p.2.isEmpty) = .ok (acc ++ w) ∧
        SameEntries (d.filter fun e => !isBlank e.2) w by
    obtain ⟨data, w, h1, h2, h3⟩ := hs [] (by simp) (by simpa using hn)
    refine ⟨urlencode data, w, by simp [urlSerialize, h1], ?_, h3⟩
    simp only [urlUnserialize, parseQsl_urlencode, h2]; rfl
  clear hn
  induction d with
  | nil => intro acc _ _; exact ⟨[], [], rfl, by simp [urlLoop], .nil⟩
  | cons e r ih =>
    intro acc hacc hn
    obtain ⟨k0, v⟩ := e
    obtain ⟨k, hk0⟩ := hk _ (List.mem_cons_self ..)
    simp only at hk0; subst hk0
    have ih := ih (fun e he => hk e (List.mem_cons_of_mem _ he)) (fun e he => hv e (List.mem_cons_of_mem _ he))
    have hnew : ∀ e ∈ acc, ∃ k', e.1 = .str k' ∧ k' ≠ k := by
      intro e he
      obtain ⟨k', hk'⟩ := hacc e he
      refine ⟨k', hk', ?_⟩
      rintro rfl
      rw [List.map_append, List.nodup_append] at hn
      exact hn.2.2 _ (List.mem_map.2 ⟨e, he, rfl⟩) _ (List.mem_map.2 ⟨_, List.mem_cons_self .., rfl⟩) hk'
    rcases hv _ (List.mem_cons_self ..) with hok | hb
    · obtain ⟨t, w, h1, h2, h3, h4⟩ := urlOk_read hok
      simp only at h1 h4
      obtain ⟨data, w', g1, g2, g3⟩ := ih (acc ++ [(.str k, w)]) (by
        intro e he
        rcases List.mem_append.1 he with he | he
        · exact hacc e he
        · rw [List.mem_singleton] at he; subst he; exact ⟨k, rfl⟩) (by simpa using hn)
      refine ⟨(k, t) :: data, (.str k, w) :: w', by simp [urlData, h1, g1, keyStr], ?_, ?_⟩
      · have ht : t.isEmpty = false := by cases t with
          | nil => exact absurd rfl h2
          | cons => rfl
        simp only [List.filter_cons, ht, Bool.not_false, if_true, urlLoop, h3, except_bind_ok, ST.dictSet_new hnew, g2]
        simp
      · have hbl : isBlank v = false := by
          cases hv' : v with
          | str s =>
            cases s with
            | nil => subst hv'; simp [stContent, stEscape] at h1; exact absurd h1 h2
            | cons => rfl
          | _ => rfl
        simp only [List.filter_cons, hbl, Bool.not_false, if_true]
        exact .cons h4 g3
    · simp only at hb; subst hb
      obtain ⟨data, w', g1, g2, g3⟩ := ih acc hacc (by
        rw [List.map_append, List.nodup_append] at hn ⊢
        rw [List.map_cons, List.nodup_cons] at hn
        exact ⟨hn.1, hn.2.1.2, fun a ha b hb => hn.2.2 a ha b (List.mem_cons_of_mem _ hb)⟩)
      refine ⟨(k, []) :: data, w', by simp [urlData, stContent, stEscape, g1, keyStr], ?_, ?_⟩
      · simpa using g2
      · simpa [isBlank] using g3

/-- C41. Anything but a mapping is refused. -/
theorem C41_not_mapping (env : Env) (v : Val) (h : ∀ d, v ≠ .dict d) : urlSerialize env v = some (.error (.py .valueError)) := by
  cases v with
  | dict d => exact absurd rfl (h d)
  | _ => rfl

/-- C41. Anything but a text is refused. -/
theorem C41_not_text (env : Env) (v : Val) (h : ∀ s, v ≠ .str s) : urlUnserialize env v = .error (.py .valueError) := by
  cases v with
  | str s => exact absurd rfl (h s)
  | _ => rfl

set_option maxRecDepth 4096 in
example : urlSerialize Ex.env (.dict [(.str c!"a b", .str c!"é&"), (.str c!"e", .str []), (.str c!"l", .list [.bool true])]) =
    some (.ok c!"a+b=%C3%A9%26&e=&l=%5Btrue%5D") := by rfl

set_option maxRecDepth 4096 in
example : urlUnserialize Ex.env (.str c!"a+b=%C3%A9%26&e=") = .ok (.dict [(.str c!"a b", .str c!"é&")]) := by rfl

example : UrlOk Ex.env (.str c!"é&") := .inr (.inr (.inl ⟨_, rfl, by decide, by
  rintro (h | h | h) <;> exact absurd h (by decide)⟩))

end Scheme
