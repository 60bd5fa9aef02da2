import Verif.Spec.Text
import Verif.Model.Codec

/-! Strings: stripping, digits, joining. -/

namespace Scheme

/-! ### Stripping -/

theorem dropWhile_of_head {p : Char → Bool} {s : Str} (h : ∀ c, s.head? = some c → p c = false) :
    s.dropWhile p = s := by
  cases s with
  | nil => rfl
  | cons a r => rw [List.dropWhile_cons, h a rfl]; rfl

theorem dropWhile_append_all {p : Char → Bool} {a s : Str} (h : ∀ c ∈ a, p c = true) :
    (a ++ s).dropWhile p = s.dropWhile p := by
  induction a with
  | nil => rfl
  | cons x r ih =>
    rw [List.cons_append, List.dropWhile_cons, h x (List.mem_cons_self ..)]
    exact ih fun c hc => h c (List.mem_cons_of_mem _ hc)

theorem head_dropWhile {p : Char → Bool} {s : Str} {c : Char} (h : (s.dropWhile p).head? = some c) :
    p c = false := by
  induction s with
  | nil => simp at h
  | cons a r ih =>
    rw [List.dropWhile_cons] at h
    split at h
    · exact ih h
    · simp only [List.head?_cons, Option.some.injEq] at h; subst h; rename_i hn; simpa using hn

theorem stripBy_eq_of {p : Char → Bool} {s t : Str} (h : Stripped p s t) : stripBy p s = t := by
  obtain ⟨a, b, rfl, ha, hb, h1, h2⟩ := h
  unfold stripBy
  rw [List.append_assoc, dropWhile_append_all ha]
  cases t with
  | nil =>
    simp only [List.nil_append]
    have : b.dropWhile p = [] := by
      have := dropWhile_append_all (s := []) hb; simpa using this
    simp [this]
  | cons x r =>
    rw [dropWhile_of_head (s := x :: r ++ b) (by intro c hc; exact h1 c (by simpa using hc))]
    rw [List.reverse_append, dropWhile_append_all (by intro c hc; exact hb c (List.mem_reverse.1 hc))]
    rw [dropWhile_of_head, List.reverse_reverse]
    intro c hc
    rw [List.head?_reverse] at hc
    exact h2 c hc

theorem takeWhile_all {p : Char → Bool} {s : Str} : ∀ c ∈ s.takeWhile p, p c = true := by
  intro c hc
  have := List.all_takeWhile (p := p) (l := s)
  exact List.all_eq_true.1 this c hc

theorem stripped_stripBy (p : Char → Bool) (s : Str) : Stripped p s (stripBy p s) := by
  refine ⟨s.takeWhile p, ((s.dropWhile p).reverse.takeWhile p).reverse, ?_, takeWhile_all, ?_, ?_, ?_⟩
  · unfold stripBy
    rw [List.append_assoc, ← List.reverse_append, List.takeWhile_append_dropWhile, List.reverse_reverse,
      List.takeWhile_append_dropWhile]
  · intro c hc; exact takeWhile_all c (List.mem_reverse.1 hc)
  · intro c hc
    have hx : (s.dropWhile p).reverse = (s.dropWhile p).reverse.takeWhile p ++ (s.dropWhile p).reverse.dropWhile p :=
      (List.takeWhile_append_dropWhile).symm
    have hx' := congrArg List.reverse hx
    rw [List.reverse_reverse, List.reverse_append] at hx'
    have hh : (s.dropWhile p).head? = some c := by
      rw [hx']
      unfold stripBy at hc
      rw [List.head?_append, hc]; rfl
    exact head_dropWhile hh
  · intro c hc
    unfold stripBy at hc
    rw [List.getLast?_reverse] at hc
    exact head_dropWhile hc

theorem stripBy_eq_iff {p : Char → Bool} {s t : Str} : stripBy p s = t ↔ Stripped p s t :=
  ⟨fun h => h ▸ stripped_stripBy p s, stripBy_eq_of⟩

theorem stripBy_of_ends {p : Char → Bool} {t : Str} (h1 : ∀ c, t.head? = some c → p c = false)
    (h2 : ∀ c, t.getLast? = some c → p c = false) : stripBy p t = t :=
  stripBy_eq_of ⟨[], [], by simp, by simp, by simp, h1, h2⟩

theorem stripBy_idem (p : Char → Bool) (s : Str) : stripBy p (stripBy p s) = stripBy p s := by
  obtain ⟨-, -, -, -, -, h1, h2⟩ := stripped_stripBy p s
  exact stripBy_of_ends h1 h2

/-! ### Digits -/

theorem forall_lt_ten {P : Nat → Prop} (h0 : P 0) (h1 : P 1) (h2 : P 2) (h3 : P 3) (h4 : P 4) (h5 : P 5)
    (h6 : P 6) (h7 : P 7) (h8 : P 8) (h9 : P 9) : ∀ n, n < 10 → P n := by
  intro n h
  match n, h with
  | 0, _ => exact h0 | 1, _ => exact h1 | 2, _ => exact h2 | 3, _ => exact h3 | 4, _ => exact h4
  | 5, _ => exact h5 | 6, _ => exact h6 | 7, _ => exact h7 | 8, _ => exact h8 | 9, _ => exact h9
  | n + 10, h => omega

theorem digitVal_digitChar (u : Chars) : ∀ n, n < 10 → digitVal u (digitChar n) = some n :=
  forall_lt_ten rfl rfl rfl rfl rfl rfl rfl rfl rfl rfl

theorem isSpace_digitChar (u : Chars) : ∀ n, n < 10 → isSpace u (digitChar n) = false :=
  forall_lt_ten rfl rfl rfl rfl rfl rfl rfl rfl rfl rfl

theorem digitChar_toNat : ∀ n, n < 10 → (digitChar n).toNat = 48 + n :=
  forall_lt_ten rfl rfl rfl rfl rfl rfl rfl rfl rfl rfl

theorem digitChar_ne {n : Nat} (h : n < 10) {c : Char} (hc : c.toNat < 48 ∨ 57 < c.toNat) : digitChar n ≠ c := by
  intro he
  have := digitChar_toNat n h
  rw [he] at this
  omega

theorem natStrF_fuel : ∀ (f g n : Nat), n < f → n < g → natStrF f n = natStrF g n := by
  intro f
  induction f with
  | zero => intro g n h; omega
  | succ f ih =>
    intro g n hf hg
    cases g with
    | zero => omega
    | succ g =>
      simp only [natStrF]
      by_cases h : n < 10
      · simp [h]
      · simp only [h, if_false]
        rw [ih g (n / 10) (by omega) (by omega)]

theorem natStr_step (n : Nat) :
    natStr n = if n < 10 then [digitChar n] else natStr (n / 10) ++ [digitChar (n % 10)] := by
  unfold natStr
  rw [natStrF]
  by_cases h : n < 10
  · simp [h]
  · simp only [h, if_false]
    rw [natStrF_fuel n (n / 10 + 1) (n / 10) (by omega) (by omega)]

theorem digitsNat_append (a b : List Nat) : digitsNat (a ++ b) = b.foldl (fun acc d => acc * 10 + d) (digitsNat a) := by
  unfold digitsNat; rw [List.foldl_append]

theorem digitsNat_snoc (a : List Nat) (d : Nat) : digitsNat (a ++ [d]) = digitsNat a * 10 + d := by
  rw [digitsNat_append]; rfl

/-- The decimal text of a number: non-empty, digits of the right value. -/
theorem natStr_digits (n : Nat) : ∃ ds : List Nat, ds ≠ [] ∧ (∀ d ∈ ds, d < 10) ∧
    natStr n = ds.map digitChar ∧ digitsNat ds = n := by
  induction n using Nat.strongRecOn with
  | ind n ih =>
    rw [natStr_step]
    by_cases h : n < 10
    · refine ⟨[n], by simp, by simpa using h, by simp [h], by simp [digitsNat]⟩
    · obtain ⟨ds, h1, h2, h3, h4⟩ := ih (n / 10) (by omega)
      refine ⟨ds ++ [n % 10], by simp, ?_, ?_, ?_⟩
      · intro d hd
        rcases List.mem_append.1 hd with hd | hd
        · exact h2 d hd
        · simp only [List.mem_singleton] at hd; omega
      · simp [h, h3]
      · rw [digitsNat_snoc, h4]; omega

theorem natStr_ne_nil (n : Nat) : natStr n ≠ [] := by
  obtain ⟨ds, h1, -, h3, -⟩ := natStr_digits n
  rw [h3]; simpa using h1

theorem natStr_inj {a b : Nat} (h : natStr a = natStr b) : a = b := by
  obtain ⟨da, -, h2, h3, h4⟩ := natStr_digits a
  obtain ⟨db, -, g2, g3, g4⟩ := natStr_digits b
  rw [h3, g3] at h
  have : da = db := by
    clear h3 h4 g3 g4
    induction da generalizing db with
    | nil => cases db <;> simp_all
    | cons x r ih =>
      cases db with
      | nil => simp at h
      | cons y s =>
        simp only [List.map_cons, List.cons.injEq] at h
        have hx := digitChar_toNat x (h2 x (List.mem_cons_self ..))
        have hy := digitChar_toNat y (g2 y (List.mem_cons_self ..))
        rw [h.1] at hx
        rw [ih (fun d hd => h2 d (List.mem_cons_of_mem _ hd)) s h.2 (fun d hd => g2 d (List.mem_cons_of_mem _ hd))]
        congr 1; omega
  rw [← h4, ← g4, this]

theorem parseDigitsAux_digits (u : Chars) (ds : List Nat) (h : ∀ d ∈ ds, d < 10) (acc : Nat) :
    parseDigitsAux u (ds.map digitChar) acc = some (ds.foldl (fun acc d => acc * 10 + d) acc) := by
  induction ds generalizing acc with
  | nil => simp [parseDigitsAux]
  | cons d r ih =>
    rw [List.map_cons, parseDigitsAux.eq_def]
    simp only [digitVal_digitChar u d (h d (List.mem_cons_self ..)), List.foldl_cons]
    exact ih (fun x hx => h x (List.mem_cons_of_mem _ hx)) _

theorem parseDigits_digits (u : Chars) (ds : List Nat) (hne : ds ≠ []) (h : ∀ d ∈ ds, d < 10) :
    parseDigits u (ds.map digitChar) = some (digitsNat ds) := by
  cases ds with
  | nil => exact absurd rfl hne
  | cons d r =>
    rw [List.map_cons, parseDigits, digitVal_digitChar u d (h d (List.mem_cons_self ..))]
    simp only
    rw [parseDigitsAux_digits u r (fun x hx => h x (List.mem_cons_of_mem _ hx))]
    simp [digitsNat]

theorem parseDigits_natStr (u : Chars) (n : Nat) : parseDigits u (natStr n) = some n := by
  obtain ⟨ds, h1, h2, h3, h4⟩ := natStr_digits n
  rw [h3, parseDigits_digits u ds h1 h2, h4]

theorem digits_ends (u : Chars) {ds : List Nat} (h : ∀ d ∈ ds, d < 10) :
    (∀ c, (ds.map digitChar).head? = some c → isSpace u c = false) ∧
    (∀ c, (ds.map digitChar).getLast? = some c → isSpace u c = false) := by
  constructor
  · intro c hc
    rw [List.head?_map] at hc
    cases hd : ds.head? with
    | none => rw [hd] at hc; simp at hc
    | some d =>
      rw [hd] at hc; simp only [Option.map_some, Option.some.injEq] at hc; subst hc
      exact isSpace_digitChar u d (h d (List.mem_of_mem_head? hd))
  · intro c hc
    rw [List.getLast?_map] at hc
    cases hd : ds.getLast? with
    | none => rw [hd] at hc; simp at hc
    | some d =>
      rw [hd] at hc; simp only [Option.map_some, Option.some.injEq] at hc; subst hc
      exact isSpace_digitChar u d (h d (List.mem_of_mem_getLast? hd))

end Scheme
