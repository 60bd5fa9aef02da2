import Verif.Lemmas.Str
import Verif.Lemmas.DateTime
import Verif.Spec.DecText
import Mathlib.Algebra.Order.Field.Rat
import Mathlib.Algebra.Order.Field.Basic
import Mathlib.Tactic.Ring
import Mathlib.Tactic.Linarith
import Mathlib.Tactic.FieldSimp

namespace Scheme

theorem spanDigits_append (u : Chars) (ds : List Nat) (h : ∀ d ∈ ds, d < 10) (r : Str)
    (hr : ∀ c t, r = c :: t → digitVal u c = none) : spanDigits u (ds.map digitChar ++ r) = (ds, r) := by
  induction ds with
  | nil =>
    cases r with
    | nil => rfl
    | cons c t => simp [spanDigits, hr c t rfl]
  | cons d l ih =>
    simp only [List.map_cons, List.cons_append, spanDigits, digitVal_digitChar u d (h d (List.mem_cons_self ..))]
    rw [ih fun x hx => h x (List.mem_cons_of_mem _ hx)]

theorem spanDigits_all (u : Chars) (ds : List Nat) (h : ∀ d ∈ ds, d < 10) :
    spanDigits u (ds.map digitChar) = (ds, []) := by
  have := spanDigits_append u ds h [] (by simp)
  simpa using this

theorem expDigits_digits (u : Chars) (ds : List Nat) (hne : ds ≠ []) (h : ∀ d ∈ ds, d < 10) :
    expDigits u (ds.map digitChar) = some (digitsNat ds) := by
  unfold expDigits
  rw [spanDigits_all u ds h]
  cases ds with
  | nil => exact absurd rfl hne
  | cons => rfl

theorem parseExp_text (u : Chars) (ds : List Nat) (hne : ds ≠ []) (h : ∀ d ∈ ds, d < 10) :
    parseExp u (ds.map digitChar) = some (digitsNat ds : Int) ∧
    parseExp u ('+' :: ds.map digitChar) = some (digitsNat ds : Int) ∧
    parseExp u ('-' :: ds.map digitChar) = some (-(digitsNat ds : Int)) := by
  have hs := expDigits_digits u ds hne h
  refine ⟨?_, by simp only [parseExp, hs]; rfl, by simp only [parseExp, hs]; rfl⟩
  cases ds with
  | nil => exact absurd rfl hne
  | cons d r =>
    have h1 : digitChar d ≠ '-' := digitChar_ne (h d (List.mem_cons_self ..)) (by decide)
    have h2 : digitChar d ≠ '+' := digitChar_ne (h d (List.mem_cons_self ..)) (by decide)
    unfold parseExp
    rw [List.map_cons] at hs ⊢
    split
    · rename_i heq; simp only [List.cons.injEq] at heq; exact absurd heq.1 h1
    · rename_i heq; simp only [List.cons.injEq] at heq; exact absurd heq.1 h2
    · rw [hs]; rfl

theorem ExpText.parse {u : Chars} {x : Str} {e : Int} (h : ExpText x e) :
    (x = [] ∧ e = 0) ∨ (∃ m r, x = m :: r ∧ (m = 'e' ∨ m = 'E') ∧ parseExp u r = some e) := by
  cases h with
  | none => exact .inl ⟨rfl, rfl⟩
  | bare hm hne hd => exact .inr ⟨_, _, rfl, hm.symm, (parseExp_text u _ hne hd).1⟩
  | plus hm hne hd => exact .inr ⟨_, _, rfl, hm.symm, (parseExp_text u _ hne hd).2.1⟩
  | minus hm hne hd => exact .inr ⟨_, _, rfl, hm.symm, (parseExp_text u _ hne hd).2.2⟩

theorem parseDecBody_text (u : Chars) (neg : Bool) (a b : List Nat) (pt : Bool) (x : Str) (e : Int)
    (ha : ∀ d ∈ a, d < 10) (hb : ∀ d ∈ b, d < 10) (hne : a ≠ [] ∨ b ≠ []) (hpt : pt = false → b = [])
    (hx : ExpText x e) :
    parseDecBody u neg (a.map digitChar ++ ((if pt then ['.'] else []) ++ (b.map digitChar ++ x))) =
      some (.fin neg (digitsNat (a ++ b)) (e - b.length)) := by
  have hxe : ∀ c t, x = c :: t → digitVal u c = none := by
    rintro c t rfl
    rcases hx.parse (u := u) with ⟨h, _⟩ | ⟨m, r, h, hm, _⟩
    · simp at h
    · simp only [List.cons.injEq] at h
      rw [h.1]; rcases hm with rfl | rfl <;> rfl
  have hfin : ∀ (l : List Nat) (k : Nat), decTail u neg (digitsNat l) k x = some (.fin neg (digitsNat l) (e - k)) := by
    intro l k
    rcases hx.parse (u := u) with ⟨rfl, rfl⟩ | ⟨m, r, rfl, hm, hp⟩
    · simp [decTail]
    · simp [decTail, hm, hp]
  cases pt with
  | true =>
    have h1 : spanDigits u (a.map digitChar ++ '.' :: (b.map digitChar ++ x)) = (a, '.' :: (b.map digitChar ++ x)) := by
      apply spanDigits_append u a ha
      intro c t h
      simp only [List.cons.injEq] at h
      rw [← h.1]; rfl
    have h2 := spanDigits_append u b hb x hxe
    have : (a.isEmpty && b.isEmpty) = false := by rcases hne with h | h <;> simp [h]
    simp only [if_true, List.cons_append, List.nil_append, parseDecBody, h1, decFrac, h2, this, Bool.false_eq_true, if_false]
    exact hfin (a ++ b) b.length
  | false =>
    have := hpt rfl
    subst this
    have hane : a ≠ [] := by simpa using hne
    have h1 := spanDigits_append u a ha x hxe
    have hq : decFrac u x = ([], x) := by
      rcases hx.parse (u := u) with ⟨rfl, _⟩ | ⟨m, r, rfl, rfl | rfl, _⟩ <;> rfl
    have : (a.isEmpty && ([] : List Nat).isEmpty) = false := by simp [hane]
    simp only [Bool.false_eq_true, if_false, List.map_nil, List.nil_append, parseDecBody, h1, hq, this]
    exact hfin (a ++ []) 0

/-- A character that neither `strip` nor the removal of underscores touches. -/
def Inert (u : Chars) (c : Char) : Prop := isSpace u c = false ∧ c ≠ '_'

theorem inert_digit (u : Chars) {d : Nat} (h : d < 10) : Inert u (digitChar d) :=
  ⟨isSpace_digitChar u d h, digitChar_ne h (by decide)⟩

theorem ExpText.inert {u : Chars} {x : Str} {e : Int} (h : ExpText x e) : ∀ c ∈ x, Inert u c := by
  have hm' : ∀ m : Char, (m = 'E' ∨ m = 'e') → Inert u m := by
    rintro m (rfl | rfl) <;> exact ⟨rfl, by decide⟩
  have hds : ∀ ds : List Nat, (∀ d ∈ ds, d < 10) → ∀ c ∈ ds.map (fun d => Char.ofNat (48 + d)), Inert u c := by
    intro ds hd c hc
    obtain ⟨d, hd', rfl⟩ := List.mem_map.1 hc
    exact inert_digit u (hd d hd')
  cases h with
  | none => simp
  | bare hm hne hd =>
    intro c hc
    rcases List.mem_cons.1 hc with rfl | hc
    · exact hm' _ hm
    · exact hds _ hd c hc
  | plus hm hne hd =>
    intro c hc
    rcases List.mem_cons.1 hc with rfl | hc
    · exact hm' _ hm
    rcases List.mem_cons.1 hc with rfl | hc
    · exact ⟨rfl, by decide⟩
    · exact hds _ hd c hc
  | minus hm hne hd =>
    intro c hc
    rcases List.mem_cons.1 hc with rfl | hc
    · exact hm' _ hm
    rcases List.mem_cons.1 hc with rfl | hc
    · exact ⟨rfl, by decide⟩
    · exact hds _ hd c hc

theorem DecText.inert {u : Chars} {t : Str} {n : Bool} {c : Nat} {e : Int} (h : DecText t n c e) : ∀ c ∈ t, Inert u c := by
  obtain ⟨sg, a, b, pt, x, e', rfl, hsg, ha, hb, -, -, hx, -, -⟩ := h
  have hds : ∀ ds : List Nat, (∀ d ∈ ds, d < 10) → ∀ c ∈ ds.map (fun d => Char.ofNat (48 + d)), Inert u c := by
    intro ds hd c hc
    obtain ⟨d, hd', rfl⟩ := List.mem_map.1 hc
    exact inert_digit u (hd d hd')
  intro c hc
  simp only [List.mem_append] at hc
  rcases hc with (((hc | hc) | hc) | hc) | hc
  · rcases hsg with ⟨_, rfl⟩ | ⟨_, rfl | rfl⟩
    · simp only [List.mem_singleton] at hc; subst hc; exact ⟨rfl, by decide⟩
    · simp at hc
    · simp only [List.mem_singleton] at hc; subst hc; exact ⟨rfl, by decide⟩
  · exact hds a ha c hc
  · cases pt
    · simp at hc
    · simp only [if_true, List.mem_singleton] at hc; subst hc; exact ⟨rfl, by decide⟩
  · exact hds b hb c hc
  · exact hx.inert c hc

theorem strip_pad {u : Chars} {t a b : Str} (ht : ∀ c ∈ t, isSpace u c = false)
    (ha : ∀ c ∈ a, isSpace u c = true) (hb : ∀ c ∈ b, isSpace u c = true) : strip u (a ++ t ++ b) = t := by
  apply stripBy_eq_of
  refine ⟨a, b, rfl, ha, hb, fun c hc => ht c ?_, fun c hc => ht c ?_⟩
  · exact List.mem_of_mem_head? hc
  · exact List.mem_of_getLast? hc

/-- Every decimal text, with any whitespace around it, is read as the decimal it spells. -/
theorem parseDec_text (u : Chars) {t : Str} {n : Bool} {c : Nat} {e : Int} (h : DecText t n c e) (p q : Str)
    (hp : ∀ c ∈ p, isSpace u c = true) (hq : ∀ c ∈ q, isSpace u c = true) :
    parseDec u (p ++ t ++ q) = some (.fin n c e) := by
  have hi := h.inert (u := u)
  unfold parseDec
  rw [strip_pad (fun c hc => (hi c hc).1) hp hq]
  rw [List.filter_eq_self.2 (by intro c hc; simpa using (hi c hc).2)]
  obtain ⟨sg, a, b, pt, x, e', rfl, hsg, ha, hb, hne, hpt, hx, rfl, rfl⟩ := h
  have key := fun neg => parseDecBody_text u neg a b pt x e' ha hb hne hpt hx
  have hbody : ∀ sg : Str, sg ++ (a.map fun d => Char.ofNat (48 + d)) ++ (if pt then ['.'] else []) ++
      (b.map fun d => Char.ofNat (48 + d)) ++ x =
      sg ++ (a.map digitChar ++ ((if pt then ['.'] else []) ++ (b.map digitChar ++ x))) := by
    intro sg; simp only [List.append_assoc]; rfl
  rw [hbody]
  rcases hsg with ⟨rfl, rfl⟩ | ⟨rfl, rfl | rfl⟩
  · exact key true
  · rw [List.nil_append]
    split
    · rename_i heq
      exfalso
      cases a with
      | nil =>
        cases pt
        · simp [hpt rfl] at hne
        · simp at heq
      | cons d l =>
        simp only [List.map_cons, List.cons_append, List.cons.injEq] at heq
        exact digitChar_ne (ha d (List.mem_cons_self ..)) (by decide) heq.1
    · rename_i heq
      exfalso
      cases a with
      | nil =>
        cases pt
        · simp [hpt rfl] at hne
        · simp at heq
      | cons d l =>
        simp only [List.map_cons, List.cons_append, List.cons.injEq] at heq
        exact digitChar_ne (ha d (List.mem_cons_self ..)) (by decide) heq.1
    · exact key false
  · exact key false

theorem digitsNat_zeros (k : Nat) (ds : List Nat) : digitsNat (List.replicate k 0 ++ ds) = digitsNat ds := by
  rw [digitsNat_append]
  have : digitsNat (List.replicate k 0) = 0 := by
    induction k with
    | zero => rfl
    | succ k ih => rw [List.replicate_succ', digitsNat_snoc, ih]
  rw [this]; rfl

/-- `str` of a finite decimal spells that decimal. -/
theorem decStr_text (n : Bool) (c : Nat) (e : Int) : DecText (decStr (.fin n c e)) n c e := by
  obtain ⟨ds, hne, hd, hs, hc⟩ := natStr_digits c
  have hlen : 1 ≤ ds.length := by cases ds with | nil => exact absurd rfl hne | cons => simp
  unfold decStr
  simp only [hs, List.length_map]
  -- the exponent part
  have hexp : ∀ e : Int, ExpText (if e = 0 then [] else if e < 0 then 'E' :: intStr e else 'E' :: '+' :: intStr e) e := by
    intro e
    split
    · rename_i h; subst h; exact .none
    · split
      · rename_i h
        match e, h with
        | .negSucc k, _ =>
          obtain ⟨es, g1, g2, g3, g4⟩ := natStr_digits (k + 1)
          have := ExpText.minus (m := 'E') (.inl rfl) g1 g2
          simp only [intStr, g3]
          have e2 : (Int.negSucc k) = -((es.foldl (fun a d => a * 10 + d) 0 : Nat) : Int) := by
            have : es.foldl (fun a d => a * 10 + d) 0 = k + 1 := g4
            rw [this]; rfl
          rw [e2]; exact this
      · rename_i h0 h
        match e, h with
        | .ofNat k, _ =>
          obtain ⟨es, g1, g2, g3, g4⟩ := natStr_digits k
          have := ExpText.plus (m := 'E') (.inl rfl) g1 g2
          simp only [intStr, g3]
          have e2 : (Int.ofNat k) = ((es.foldl (fun a d => a * 10 + d) 0 : Nat) : Int) := by
            have : es.foldl (fun a d => a * 10 + d) 0 = k := g4
            rw [this]; rfl
          rw [e2]; exact this
        | .negSucc k, h => exact absurd (Int.negSucc_lt_zero k) h
  have hsign : (n = true ∧ (if n then c!"-" else []) = ['-'] ∨ n = false ∧ ((if n then c!"-" else []) = [] ∨ (if n then c!"-" else []) = ['+'])) := by
    cases n <;> simp
  generalize hdp : (if e ≤ 0 ∧ e + (ds.length : Int) > -6 then e + (ds.length : Int) else 1) = dp
  have hx := hexp (e + ds.length - dp)
  generalize (if e + (ds.length : Int) - dp = 0 then [] else if e + (ds.length : Int) - dp < 0 then 'E' :: intStr (e + ds.length - dp)
    else 'E' :: '+' :: intStr (e + ds.length - dp)) = x at hx
  by_cases h1 : dp ≤ 0
  · -- 0.000ddd
    rw [if_pos h1]
    have hdpe : dp = e + ds.length := by
      rw [← hdp] at h1 ⊢; split at h1
      · rename_i h; rw [if_pos h]
      · omega
    refine ⟨_, [0], List.replicate (-dp).toNat 0 ++ ds, true, x, _, ?_, hsign, by simp, ?_, by simp, by simp, hx, ?_, ?_⟩
    · simp only [List.map_append, List.map_replicate, List.map_cons, List.map_nil, if_true, List.append_assoc]
      rfl
    · intro d hd'
      rcases List.mem_append.1 hd' with h | h
      · rw [(List.mem_replicate.1 h).2]; omega
      · exact hd d h
    · show c = digitsNat ([0] ++ (List.replicate (-dp).toNat 0 ++ ds))
      rw [show [0] ++ (List.replicate (-dp).toNat 0 ++ ds) = List.replicate ((-dp).toNat + 1) 0 ++ ds by
        rw [List.replicate_succ]; rfl, digitsNat_zeros, hc]
    · simp only [List.length_append, List.length_replicate]; omega
  · rw [if_neg h1]
    by_cases h2 : dp ≥ (ds.length : Int)
    · rw [if_pos h2]
      have h0 : (dp - ds.length).toNat = 0 := by
        rw [← hdp] at h2 ⊢; split at h2
        · rename_i h; rw [if_pos h]; omega
        · rename_i h; rw [if_neg h]; omega
      refine ⟨_, ds, [], false, x, _, ?_, hsign, hd, by simp, .inl hne, by simp, hx, ?_, ?_⟩
      · rw [h0]; simp [digitChar]
      · rw [List.append_nil]; exact hc.symm
      · have : dp = ds.length := by omega
        rw [this]; simp
    · rw [if_neg h2]
      refine ⟨_, ds.take dp.toNat, ds.drop dp.toNat, true, x, _, ?_, hsign, fun d h => hd d (List.mem_of_mem_take h),
        fun d h => hd d (List.mem_of_mem_drop h), ?_, by simp, hx, ?_, ?_⟩
      · simp only [List.map_take, List.map_drop, if_true, List.append_assoc]; rfl
      · right; intro h
        have := congrArg List.length h
        simp at this; omega
      · rw [List.take_append_drop]; exact hc.symm
      · simp only [List.length_drop]; omega

/-- `str` of any decimal is read back as that decimal. -/
theorem parseDec_decStr (u : Chars) (d : Dec) : parseDec u (decStr d) = some d := by
  cases d with
  | fin n c e =>
    have := parseDec_text u (decStr_text n c e) [] [] (by simp) (by simp)
    simpa using this
  | inf n => cases n <;> rfl
  | nan => rfl

theorem decRat_scaled (n : Bool) (c : Nat) (e : Int) (k : Nat) (hk : e.natAbs ≤ k) :
    decRat n c e * (10 : Rat) ^ k = (scaled n c e k : Int) := by
  have h10 : ∀ j : Nat, (10 : Rat) ^ j ≠ 0 := fun j => pow_ne_zero _ (by norm_num)
  have key : (if e < 0 then mkRat c (10 ^ e.natAbs) else ((c * 10 ^ e.natAbs : Nat) : Rat)) * (10 : Rat) ^ k =
      (c : Rat) * 10 ^ (e + k).toNat := by
    split
    · rename_i h
      rw [Rat.mkRat_eq_div]
      have : k = e.natAbs + (e + k).toNat := by omega
      conv_lhs => rw [this]
      rw [pow_add]
      push_cast
      field_simp [h10]
    · rename_i h
      have : (e + k).toNat = e.natAbs + k := by omega
      rw [this, pow_add]
      push_cast
      ring
  unfold decRat scaled
  cases n
  · simp only [Bool.false_eq_true, if_false] at key ⊢
    rw [key]; push_cast; ring
  · simp only [if_true] at key ⊢
    rw [neg_mul, key]; push_cast; ring

theorem decLt_iff (a b : Dec) : decLt a b = some false ↔ DecLe b a := by
  cases a with
  | nan => cases b <;> simp [decLt, decVal, DecLe]
  | inf n =>
    cases b with
    | nan => cases n <;> simp [decLt, decVal, DecLe]
    | inf m => cases n <;> cases m <;> simp [decLt, decVal, DecLe, floatLt]
    | fin => cases n <;> simp [decLt, decVal, DecLe, floatLt]
  | fin n c e =>
    cases b with
    | nan => simp [decLt, decVal, DecLe]
    | inf m => cases m <;> simp [decLt, decVal, DecLe, floatLt]
    | fin n' c' e' =>
      simp only [decLt, decVal, floatLt, Option.some.injEq, decide_eq_false_iff_not, DecLe, not_lt]
      have h1 := decRat_scaled n c e (e'.natAbs + e.natAbs) (by omega)
      have h2 := decRat_scaled n' c' e' (e'.natAbs + e.natAbs) (by omega)
      have hpos : (0 : Rat) < 10 ^ (e'.natAbs + e.natAbs) := pow_pos (by norm_num) _
      rw [← mul_le_mul_iff_of_pos_right hpos, h1, h2]
      exact Int.cast_le

end Scheme
