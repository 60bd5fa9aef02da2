import Verif.Lemmas.Tag
import Verif.Lemmas.Blame
import Verif.Lemmas.Accept
import Verif.Spec.Settled
import Verif.Props.Conformance
import Verif.Props.Union

/-! C02: processing a native result again changes nothing. -/

namespace Scheme

theorem given_cons_str (k : Str) (v : Val) (d : List (Val × Val)) (name : Str) :
    given ((.str k, v) :: d) name = if k = name then some v else given d name := by
  unfold given
  simp only [List.find?_cons]
  by_cases h : k = name
  · simp [h]
  · rw [show (k == name) = false from by simpa using h]; simp [h]

theorem slotDict_cons_some (k : Str) (v : Val) (r : List (Str × Option Val)) :
    slotDict ((k, some v) :: r) = (.str k, v) :: slotDict r := rfl

theorem slotDict_cons_none (k : Str) (r : List (Str × Option Val)) :
    slotDict ((k, none) :: r) = slotDict r := rfl

theorem given_slotDict {slots : List (Str × Option Val)} (hnd : (slots.map (·.1)).Nodup) {x : Str × Option Val}
    (hx : x ∈ slots) : given (slotDict slots) x.1 = x.2 := by
  induction slots with
  | nil => cases hx
  | cons a r ih =>
    obtain ⟨k, o⟩ := a
    simp only [List.map_cons, List.nodup_cons] at hnd
    have tail : given (slotDict ((k, o) :: r)) x.1 =
        if o.isSome ∧ k = x.1 then o else given (slotDict r) x.1 := by
      cases o with
      | none => simp [slotDict_cons_none]
      | some v => rw [slotDict_cons_some, given_cons_str]; simp
    rw [tail]
    rcases List.mem_cons.1 hx with rfl | hx'
    · cases o with
      | some v => simp
      | none =>
        simp only [Option.isSome_none, Bool.false_eq_true, false_and, if_false]
        have : ∀ s : List (Str × Option Val), k ∉ s.map (·.1) → given (slotDict s) k = none := by
          intro s
          induction s with
          | nil => intro _; rfl
          | cons b t iht =>
            obtain ⟨k', o'⟩ := b
            intro hk
            simp only [List.map_cons, List.mem_cons, not_or] at hk
            cases o' with
            | none => exact iht hk.2
            | some v =>
              rw [slotDict_cons_some, given_cons_str, if_neg fun h => hk.1 h.symm]
              exact iht hk.2
        exact this r hnd.1
    · have hne : ¬ k = x.1 := by
        intro h; exact hnd.1 (h ▸ List.mem_map.2 ⟨x, hx', rfl⟩)
      simp only [hne, and_false, if_false]
      exact ih hnd.2 hx'

theorem slotDict_keys {slots : List (Str × Option Val)} {e : Val × Val} (h : e ∈ slotDict slots) :
    ∃ x ∈ slots, e.1 = .str x.1 := by
  unfold slotDict at h
  obtain ⟨x, hx, h⟩ := List.mem_filterMap.1 h
  rw [Option.map_eq_some_iff] at h
  obtain ⟨v, _, rfl⟩ := h
  exact ⟨x, hx, rfl⟩

/-! ### Emails -/

theorem lowerChar_ascii {u : Chars} {c : Char} (hc : c.toNat < 128) :
    lowerChar u c = [if asciiUpper c then Char.ofNat (c.toNat + 32) else c] := by
  unfold lowerChar
  rw [if_pos (by simpa [isAscii] using hc)]
  split <;> rfl

theorem lower_singleton (u : Chars) (c : Char) : lower u [c] = lowerChar u c := by simp [lower]

/-- Every character of a lower-cased text is lower case. -/
theorem lower_mem {u : Chars} (hl : LowerLaw u) {s : Str} {x : Char} (hx : x ∈ lower u s) : lowerChar u x = [x] := by
  unfold lower at hx
  obtain ⟨c, _, hx⟩ := List.mem_flatMap.1 hx
  by_cases hc : c.toNat < 128
  · rw [lowerChar_ascii hc] at hx
    simp only [List.mem_singleton] at hx
    have key : ∀ n : Fin 128, (let c := Char.ofNat n.val
        let d := if asciiUpper c then Char.ofNat (c.toNat + 32) else c
        decide (d.toNat < 128) && (!asciiUpper d)) = true := by decide +kernel
    have := ascii_all (P := fun c => (let d := if asciiUpper c then Char.ofNat (c.toNat + 32) else c
        decide (d.toNat < 128) && (!asciiUpper d))) key c hc
    simp only [← hx, Bool.and_eq_true, decide_eq_true_eq, Bool.not_eq_eq_eq_not, Bool.not_true] at this
    rw [lowerChar_ascii this.1, this.2]; rfl
  · have : ¬ isAscii c = true := by simpa [isAscii] using hc
    unfold lowerChar at hx
    rw [if_neg this] at hx
    rw [← lower_singleton]
    exact ((hl c (by omega)).2 x hx).1

theorem lower_fixed {u : Chars} {s : Str} (h : ∀ x ∈ s, lowerChar u x = [x]) : lower u s = s := by
  induction s with
  | nil => rfl
  | cons c r ih =>
    have h1 := h c (List.mem_cons_self ..)
    have h2 := ih fun x hx => h x (List.mem_cons_of_mem _ hx)
    unfold lower at h2 ⊢
    rw [List.flatMap_cons, h1, h2]; rfl

/-- Lower-casing a character that is no separator gives no separator. -/
theorem lowerChar_nosep {u : Chars} (hl : LowerLaw u) {c : Char} (hc : IsEmailSep c = false) :
    lowerChar u c ≠ [] ∧ ∀ x ∈ lowerChar u c, IsEmailSep x = false := by
  by_cases ha : c.toNat < 128
  · rw [lowerChar_ascii ha]
    refine ⟨by simp, fun x hx => ?_⟩
    simp only [List.mem_singleton] at hx
    have key : ∀ n : Fin 128, (let c := Char.ofNat n.val
        IsEmailSep c || !IsEmailSep (if asciiUpper c then Char.ofNat (c.toNat + 32) else c)) = true := by decide +kernel
    have := ascii_all (P := fun c =>
        IsEmailSep c || !IsEmailSep (if asciiUpper c then Char.ofNat (c.toNat + 32) else c)) key c ha
    rw [← hx, hc] at this
    simpa using this
  · have : ¬ isAscii c = true := by simpa [isAscii] using ha
    unfold lowerChar
    rw [if_neg this]
    exact ⟨(hl c (by omega)).1, fun x hx => ((hl c (by omega)).2 x hx).2⟩

theorem lower_ends {u : Chars} (hl : LowerLaw u) {r : Str} (h1 : ∀ c, r.head? = some c → IsEmailSep c = false)
    (h2 : ∀ c, r.getLast? = some c → IsEmailSep c = false) :
    (∀ c, (lower u r).head? = some c → IsEmailSep c = false) ∧
      ∀ c, (lower u r).getLast? = some c → IsEmailSep c = false := by
  constructor
  · cases r with
    | nil => intro c hc; cases hc
    | cons a r =>
      obtain ⟨hne, hs⟩ := lowerChar_nosep hl (h1 a rfl)
      intro c hc
      unfold lower at hc
      rw [List.flatMap_cons] at hc
      obtain ⟨y, ys, hy⟩ := List.exists_cons_of_ne_nil hne
      rw [hy] at hc hs
      simp only [List.cons_append, List.head?_cons, Option.some.injEq] at hc
      subst hc
      exact hs _ (List.mem_cons_self ..)
  · rcases List.eq_nil_or_concat r with rfl | ⟨r, a, rfl⟩
    · intro c hc; cases hc
    · obtain ⟨hne, hs⟩ := lowerChar_nosep hl (h2 a (by simp))
      intro c hc
      unfold lower at hc
      rw [List.concat_eq_append, List.flatMap_append, List.getLast?_append] at hc
      simp only [List.flatMap_cons, List.flatMap_nil, List.append_nil] at hc
      rw [List.getLast?_eq_some_getLast hne] at hc
      simp only [Option.some_or, Option.some.injEq] at hc
      subst hc
      exact hs _ (List.getLast_mem hne)

/-- What `collapseSeps` returns has no white space, no two adjacent separators. -/
theorem collapseSeps_mem {u : Chars} {b : Bool} {s : Str} {x : Char} (hx : x ∈ collapseSeps u b s) :
    x = ',' ∨ (x ∈ s ∧ ¬ listSep u x) := by
  induction s generalizing b with
  | nil => cases b <;> cases hx
  | cons c r ih =>
    rw [collapseSeps] at hx
    split at hx
    · split at hx
      · rcases ih hx with h | h
        · exact .inl h
        · exact .inr ⟨List.mem_cons_of_mem _ h.1, h.2⟩
      · rcases List.mem_cons.1 hx with h | hx
        · exact .inl h
        · rcases ih hx with h | h
          · exact .inl h
          · exact .inr ⟨List.mem_cons_of_mem _ h.1, h.2⟩
    · rename_i hc
      rcases List.mem_cons.1 hx with rfl | hx
      · exact .inr ⟨List.mem_cons_self .., fun h => hc ((listSep_iff u _).2 h)⟩
      · rcases ih hx with h | h
        · exact .inl h
        · exact .inr ⟨List.mem_cons_of_mem _ h.1, h.2⟩

theorem collapseSeps_idem (u : Chars) (s : Str) (b : Bool) :
    collapseSeps u b (collapseSeps u b s) = collapseSeps u b s := by
  have comma : (isSpace u ',' || ',' == ',' || ',' == ';' || ',' == ':') = true := by simp
  induction s generalizing b with
  | nil => cases b <;> rfl
  | cons c r ih =>
    rw [collapseSeps]
    split
    · cases b with
      | true => exact ih true
      | false =>
        simp only [Bool.false_eq_true, if_false]
        rw [collapseSeps, if_pos comma]
        simp only [Bool.false_eq_true, if_false, ih true]
    · rename_i hc
      rw [collapseSeps, if_neg hc, ih false]

theorem IsEmail.ends {s : Str} (h : IsEmail s) : s ≠ [] ∧ (∀ c, s.head? = some c → IsEmailSep c = false) ∧
    ∀ c, s.getLast? = some c → IsEmailSep c = false := by
  obtain ⟨a, b, rfl, ha, hb⟩ := h
  have hb' : ∃ x y, b = x ++ [y] ∧ IsEmailSep y = false := by
    obtain ⟨l, tld, hl, hlen, h2, h6, hlet, rfl⟩ := hb
    rcases List.eq_nil_or_concat tld with rfl | ⟨t, y, rfl⟩
    · simp at h2
    · refine ⟨l.flatMap (· ++ ['.']) ++ t, y, by simp, ?_⟩
      have : IsLetter y := hlet y (by simp)
      have key : ∀ y ∈ c!"abcdefghijklmnopqrstuvwxyzABCDEFGHIJKLMNOPQRSTUVWXYZ", IsEmailSep y = false := by decide
      exact key y this
  refine ⟨by simp, fun c hc => ?_, fun c hc => ?_⟩
  · rcases ha with h | ⟨q, _, h⟩
    · obtain ⟨l, hl, hx, rfl⟩ := h
      cases l with
      | nil => exact absurd rfl hl
      | cons x r =>
        obtain ⟨hx1, hx2⟩ := hx x (List.mem_cons_self ..)
        obtain ⟨y, ys, rfl⟩ := List.exists_cons_of_ne_nil hx1
        have hy : IsAtomChar y := hx2 y (List.mem_cons_self ..)
        have key : ∀ y ∈ c!"abcdefghijklmnopqrstuvwxyzABCDEFGHIJKLMNOPQRSTUVWXYZ0123456789-!#$%&'*+/=?^_`{}|~",
          IsEmailSep y = false := by decide
        have hc' : c = y := by
          cases r <;> (simp [Joined] at hc; exact hc.symm)
        subst hc'
        exact key _ hy
    · subst h
      simp at hc
      subst hc
      decide
  · obtain ⟨x, y, rfl, hy⟩ := hb'
    rw [show a ++ '@' :: (x ++ [y]) = (a ++ '@' :: x) ++ [y] by simp, List.getLast?_append] at hc
    simp at hc
    subst hc; exact hy

/-- The normal form of an accepted address is its own normal form. -/
theorem email_again {u : Chars} (hl : LowerLaw u) {s t : Str} {mult : Bool}
    (ht : t = (let r := lower u (stripBy emailSep s); if mult then collapseSeps u false r else r))
    {t' : Str} (ha : t = t' ∨ t = t' ++ ['\n']) (hE : EmailText mult false t') :
    (let r := lower u (stripBy emailSep t); if mult then collapseSeps u false r else r) = t := by
  obtain ⟨-, -, -, -, -, h1, h2⟩ := stripped_stripBy emailSep s
  have h1' : ∀ c, (stripBy emailSep s).head? = some c → IsEmailSep c = false := fun c hc => by
    rw [← emailSep_eq]; exact h1 c hc
  have h2' : ∀ c, (stripBy emailSep s).getLast? = some c → IsEmailSep c = false := fun c hc => by
    rw [← emailSep_eq]; exact h2 c hc
  obtain ⟨e1, e2⟩ := lower_ends hl h1' h2'
  have hlow : ∀ x ∈ lower u (stripBy emailSep s), lowerChar u x = [x] := fun x hx => lower_mem hl hx
  cases mult with
  | false =>
    simp only [Bool.false_eq_true, if_false] at ht ⊢
    subst ht
    rw [stripBy_of_ends (fun c hc => by rw [emailSep_eq]; exact e1 c hc) (fun c hc => by rw [emailSep_eq]; exact e2 c hc)]
    exact lower_fixed hlow
  | true =>
    simp only [if_true] at ht ⊢
    have hnl : t = t' := by
      rcases ha with h | h
      · exact h
      · exfalso
        have : '\n' ∈ t := by rw [h]; simp
        rw [ht] at this
        rcases collapseSeps_mem this with h | ⟨_, h⟩
        · exact absurd h (by decide)
        · exact h (.inl (by simp [isSpace, isAscii, asciiSpace]))
    subst hnl
    have ends : (∀ c, t.head? = some c → IsEmailSep c = false) ∧ ∀ c, t.getLast? = some c → IsEmailSep c = false := by
      rcases hE with rfl | hE
      · exact ⟨by simp, by simp⟩
      · simp only [if_true] at hE
        obtain ⟨l, hne, hx, rfl⟩ := hE
        clear ht hlow e1 e2 ha
        induction l with
        | nil => exact absurd rfl hne
        | cons a r ih =>
          obtain ⟨a1, a2, a3⟩ := (hx a (List.mem_cons_self ..)).ends
          cases r with
          | nil => exact ⟨a2, a3⟩
          | cons b r =>
            obtain ⟨_, b2⟩ := ih (by simp) (fun x hx' => hx x (List.mem_cons_of_mem _ hx'))
            have hj : Joined ',' (a :: b :: r) = a ++ ',' :: Joined ',' (b :: r) := rfl
            rw [hj]
            obtain ⟨y, ys, rfl⟩ := List.exists_cons_of_ne_nil a1
            refine ⟨fun c hc => a2 c hc, fun c hc => ?_⟩
            have hne2 : Joined ',' (b :: r) ≠ [] := by
              obtain ⟨b1, _⟩ := (hx b (by simp)).ends
              cases r with
              | nil => exact b1
              | cons d r' => exact fun h => b1 (by
                  have : b ++ ',' :: Joined ',' (d :: r') = [] := h
                  simp at this)
            rw [List.getLast?_append, List.getLast?_cons, List.getLast?_eq_some_getLast hne2] at hc
            apply b2
            rw [List.getLast?_eq_some_getLast hne2]
            simpa using hc
    rw [stripBy_of_ends (fun c hc => by rw [emailSep_eq]; exact ends.1 c hc)
      (fun c hc => by rw [emailSep_eq]; exact ends.2 c hc), lower_fixed, ht, collapseSeps_idem]
    intro x hx
    rw [ht] at hx
    rcases collapseSeps_mem hx with rfl | ⟨h, _⟩
    · rfl
    · exact hlow x h

/-! ### Leaves -/

theorem isNull_false_of {c : Common} {k : Leaf} {v w : Val} {anc anc' : List Str}
    (h : isNull (.leaf c k) v anc = .ok false) (hk : w = v ∨ w ≠ .none ∧ ∀ vals ign, k ≠ .enumeration vals ign) :
    isNull (.leaf c k) w anc' = .ok false := by
  rcases hk with rfl | ⟨h1, h2⟩
  · obtain ⟨c', hc, hb, _⟩ := isNull_cases h
    unfold isNull
    rw [hc]
    simp only [← hb, Bool.false_eq_true, if_false]
  · exact isNull_notNull (NotNull.mk' h1 h2)

/-- Whether a leaf accepts does not depend on the location. -/
theorem validateLeaf_anc {env : Env} {f : Field} {k : Leaf} {v w : Val} {anc anc' : List Str}
    (h : validateLeaf env f k v anc = .ok w) : validateLeaf env f k v anc' = .ok w := by
  by_cases ht : ∃ p a b s, k = .text p a b s
  · obtain ⟨p, a, b, s, rfl⟩ := ht
    exact validate_text.2 (validate_text.1 h)
  by_cases hd : ∃ a b u, k = .datetime a b u
  · obtain ⟨a, b, u, rfl⟩ := hd
    exact validate_datetime.2 (validate_datetime.1 h)
  cases k with
  | text p a b s => exact absurd ⟨p, a, b, s, rfl⟩ ht
  | datetime a b u => exact absurd ⟨a, b, u, rfl⟩ hd
  | binary mn mx => exact validate_binary.2 (validate_binary.1 h)
  | date mn mx => exact validate_date.2 (validate_date.1 h)
  | decimal mn mx => exact validate_decimal.2 (validate_decimal.1 h)
  | email mn mx mu e => exact validate_email.2 (validate_email.1 h)
  | integer mn mx => exact validate_integer.2 (validate_integer.1 h)
  | token seg => exact validate_token.2 (validate_token.1 h)
  | uuid => exact validate_uuid.2 (validate_uuid.1 h)
  | any => exact h
  | object => exact h
  | boolean => cases v <;> first | exact h | (simp [validateLeaf] at h; done)
  | error => cases v <;> first | exact h | (simp [validateLeaf] at h; done)
  | time mn mx =>
    cases v <;> simp only [validateLeaf, reduceCtorEq, bounds_split] at h ⊢
    exact h
  | float mn mx =>
    cases v <;> simp only [validateLeaf, reduceCtorEq, bounds_split] at h ⊢
    exact h
  | definition valid =>
    cases v <;> simp only [validateLeaf, reduceCtorEq] at h ⊢
    split at h
    · simp at h
    · rename_i hc; rw [if_neg hc]; exact h
  | enumeration vals ign =>
    simp only [validateLeaf] at h ⊢
    split at h
    · rename_i hc; rw [if_pos hc]; exact h
    · simp at h
  | surrogate valid =>
    cases v <;> simp only [validateLeaf, reduceCtorEq] at h ⊢
    exact h

theorem leaf_again {env : Env} (hz : ZoneLaw env) {n : Nat} {c : Common} {k : Leaf} (hs : Settled env (.leaf c k))
    {v w : Val} {ser : Bool} {anc anc' : List Str}
    (h : process env (n + 1) (.leaf c k) v .inbound ser anc = .ok w) :
    process env (n + 1) (.leaf c k) w .inbound false anc' = .ok w := by
  obtain ⟨hpre, -⟩ := hs.1 c rfl
  have h : processLeaf env c k v .inbound ser anc = .ok w := h
  show processLeaf env c k w .inbound false anc' = .ok w
  rcases processLeaf_ok.1 h with ⟨h1, rfl⟩ | ⟨h1, v1, v2, v3, hd, hp, hc, hv, he⟩
  · obtain ⟨c', hc, _, h2⟩ := isNull_cases h1
    cases hc
    exact (process_none_ok (env := env) (n := 0) (f := .leaf c k) (c := c) (ph := .inbound) (ser := false) (anc := anc') rfl).2 ⟨rfl, h2 rfl⟩
  · have he : v3 = w := by
      unfold encodeStep at he
      rw [if_neg (by simp)] at he
      cases he; rfl
    subst he
    rw [processLeaf_ok]
    by_cases hnone : v3 = .none
    · -- only an Object field imports None
      subst hnone
      have hnn : c.nonnull = false := by
        have := leaf_conforms (ser := ser) (ph := .inbound) hz (.inr rfl) h
        cases this with
        | null h1 h2 => cases h1; exact h2
        | leaf h1 h2 h3 =>
          rcases h3 rfl with h | h | h
          · exact h
          · exact absurd hpre h
          · subst h; exact hs.2.1
      exact .inl ⟨by rw [isNull_none rfl, hnn]; rfl, rfl⟩
    · -- the value is validated again with the same outcome
      have hval : validateLeaf env (.leaf c k) k v3 (ancOr (.leaf c k) anc') = .ok v3 := by
        by_cases hr : rewrites k
        · cases k with
          | text p mn mx b =>
            obtain ⟨s, t, _, hf, rfl, h1, h2, h3⟩ := validate_text.1 hv
            refine validate_text.2 ⟨t, t, rfl, ?_, rfl, h1, h2, h3⟩
            cases b with
            | false => rfl
            | true =>
              obtain ⟨e1, e2⟩ := hf.ends rfl
              exact ⟨[], [], by simp, by simp, by simp, e1, e2⟩
          | datetime mn mx utc =>
            obtain ⟨d, d', _, hn, rfl, h1, h2⟩ := validate_datetime.1 hv
            refine validate_datetime.2 ⟨d', d', rfl, ?_, rfl, h1, h2⟩
            right; left
            rcases hn with ⟨_, rfl⟩ | ⟨h, rfl⟩ | ⟨z, _, _, h⟩
            · exact ⟨rfl, rfl⟩
            · exact ⟨h, rfl⟩
            · exact ⟨hz _ _ _ h, rfl⟩
          | _ => exact absurd hr (by simp [rewrites])
        · have := validateLeaf_fixed hr hv
          subst this
          exact validateLeaf_anc hv
      have hconst : ConstOk c v3 := by
        by_cases hr : rewrites k
        · cases k with
          | text p mn mx b =>
            have hb : b = true := hr
            subst hb
            obtain ⟨s, t, rfl, hf, rfl, _⟩ := validate_text.1 hv
            rcases hc with hc | hc
            · exact .inl hc
            · right
              rw [pyEq_str_left] at hc
              have hfix := hs.2 s hc
              have : t = s := by
                rw [← textForm_iff] at hf hfix
                exact hf.symm.trans hfix
              subst this
              rw [pyEq_str_left]; exact hc
          | datetime mn mx utc => exact .inl hs.2
          | _ => exact absurd hr (by simp [rewrites])
        · rwa [validateLeaf_fixed hr hv]
      have hnull : isNull (.leaf c k) v3 (ancOr (.leaf c k) anc') = .ok false := by
        by_cases hE : ∃ vals ign, k = .enumeration vals ign
        · obtain ⟨vals, ign, rfl⟩ := hE
          have e1 := validateLeaf_fixed (by simp [rewrites]) hv
          simp only [preprocess, hpre, Except.ok.injEq] at hp
          have e3 : v1 = v := by
            unfold decodeStep at hd
            split at hd
            · simp only [unserializeLeaf, Except.ok.injEq] at hd; exact hd.symm
            · cases hd; rfl
          exact isNull_false_of h1 (.inl (by rw [e1, ← hp, e3]))
        · exact isNull_notNull (NotNull.mk' hnone (fun vals ign h => hE ⟨vals, ign, h⟩))
      have hpre2 : preprocess env (.leaf c k) c k v3 (ancOr (.leaf c k) anc') = .ok v3 := by
        by_cases hE : ∃ a b m, k = .email a b m false
        · obtain ⟨a, b, m, rfl⟩ := hE
          simp only [preprocess, hpre, Bool.false_eq_true, if_false] at hp ⊢
          obtain ⟨rfl, t, rfl, _, _, t', ht, hE⟩ := validate_email.1 hv
          cases v1 <;> simp only [reduceCtorEq] at hp
          simp only [Except.ok.injEq, Val.str.injEq] at hp ⊢
          exact email_again hs.2 hp.symm ht hE
        · refine preprocess_none ⟨hpre, fun a b m e he => ?_⟩
          cases e
          · exact absurd ⟨a, b, m, he⟩ hE
          · rfl
      refine .inr ⟨hnull, v3, v3, v3, ?_, hpre2, hconst, hval, ?_⟩
      · unfold decodeStep; rw [if_neg (by simp)]
      · unfold encodeStep; rw [if_neg (by simp)]

/-- When a union gives a result: None for None, and otherwise what the first alternative gives that does not reject the type. -/
theorem union_ok {env : Env} {n : Nat} {c : Common} {fs : List Field} {v : Val} {ph : Phase} {ser : Bool} {anc : List Str} {r : Val} :
    process env (n + 1) (.union c fs) v ph ser anc = .ok r ↔ (v = .none ∧ r = .none ∧ c.nonnull = false) ∨
      (v ≠ .none ∧ ∃ pre g, Picks env n fs pre g v ph ser (ancOr (.union c fs) anc) r) := by
  have loop : ∀ A, (match unionLoop env (process env n) v ph ser A fs with
      | some r => r
      | none => .error (mkErr (.union c fs) .invalidType A v c!"invalid" [])) = .ok r ↔
      ∃ pre g, Picks env n fs pre g v ph ser A r := by
    intro A
    have aux : ∀ l : List Field, unionLoop env (process env n) v ph ser A l = some (.ok r) ↔
        ∃ pre g, Picks env n l pre g v ph ser A r := by
      intro l
      induction l with
      | nil =>
        refine ⟨fun h => (by cases h), ?_⟩
        rintro ⟨pre, g, ⟨f, post, h, _⟩, _⟩
        cases pre <;> cases h
      | cons p l ih =>
        by_cases hr : RejectsType (callChild env (process env n) p v ph ser A)
        · have e := unionLoop_append [p] l (env := env) (rec := process env n) (v := v) (ph := ph) (ser := ser) (anc := A) (by simpa using hr)
          rw [List.singleton_append] at e
          rw [e, ih]
          have hp : ∃ g, resolve env p = some g ∧ RejectsType (process env n g v ph ser A) := by
            unfold callChild at hr
            split at hr
            · obtain ⟨_, _, h⟩ := hr; cases h
            · exact ⟨_, ‹_›, hr⟩
          constructor
          · rintro ⟨pre, g, ⟨f, post, h1, h2⟩, h3, h4⟩
            exact ⟨p :: pre, g, ⟨f, post, by rw [h1]; rfl, h2⟩, fun x hx => by
              rcases List.mem_cons.1 hx with rfl | hx
              · exact hp
              · exact h3 x hx, h4⟩
          · rintro ⟨pre, g, ⟨f, post, h1, h2⟩, h3, h4⟩
            cases pre with
            | nil =>
              cases h1
              obtain ⟨g', h5, e, _, h6⟩ := hp
              rw [h2] at h5; cases h5
              rw [h4] at h6; cases h6
            | cons q pre =>
              cases h1
              exact ⟨pre, g, ⟨f, post, rfl, h2⟩, fun x hx => h3 x (List.mem_cons_of_mem _ hx), h4⟩
        · have stop : unionLoop env (process env n) v ph ser A (p :: l) = some (callChild env (process env n) p v ph ser A) := by
            simp only [unionLoop]
            split
            · rename_i e he
              rw [if_neg fun h => hr ⟨e, h, he⟩, he]
            · rfl
          rw [stop]
          constructor
          · intro h
            have h := Option.some.inj h
            cases hg : resolve env p with
            | none => rw [callChild, hg] at h; cases h
            | some g =>
              rw [callChild, hg] at h
              exact ⟨[], g, ⟨p, l, rfl, hg⟩, fun _ hx => (by cases hx), h⟩
          · rintro ⟨pre, g, ⟨f, post, h1, h2⟩, h3, h4⟩
            cases pre with
            | nil => cases h1; rw [callChild, h2]; exact congrArg some h4
            | cons q pre =>
              cases h1
              obtain ⟨g', h5, h6⟩ := h3 p (List.mem_cons_self ..)
              exact absurd (by rw [callChild, h5]; exact h6) hr
    rw [← aux]
    cases unionLoop env (process env n) v ph ser A fs with
    | none => exact ⟨fun h => (by cases h), fun h => (by cases h)⟩
    | some x => exact ⟨fun h => congrArg some h, fun h => Option.some.inj h⟩
  show processUnion env (process env n) c fs v ph ser anc = .ok r ↔ _
  unfold processUnion
  by_cases hv : v = .none
  · subst hv
    simp only [isNull_none (f := .union c fs) rfl]
    cases c.nonnull
    · simp [eq_comm, pure, Except.pure]
    · simp
  · simp only [isNull_nonEnum (f := .union c fs) rfl (by simp) hv, except_bind_ok, Bool.false_eq_true, if_false, hv, false_and, false_or,
      not_false_iff, true_and, ne_eq]
    exact loop _

/-- Once the alternatives before it reject a value, and an alternative accepts it, the union is that alternative. -/
theorem union_picked {env : Env} {n : Nat} {c : Common} {fs pre : List Field} {g : Field} {v : Val} {ph : Phase} {ser : Bool} {anc : List Str} {w : Val}
    (hv : v ≠ .none) (h : Picks env n fs pre g v ph ser (ancOr (.union c fs) anc) w) :
    process env (n + 1) (.union c fs) v ph ser anc = .ok w := union_ok.2 (.inr ⟨hv, pre, g, h⟩)

/-- A settled field that ignores nulls returns None for None only. -/
theorem settled_none {env : Env} (hz : ZoneLaw env) {n : Nat} {g : Field} {c : Common} (hs : Settled env g)
    (hc : g.common? = some c) (hi : c.ignoreNull = true) {v : Val} {ser : Bool} {anc : List Str}
    (h : process env n g v .inbound ser anc = .ok .none) : v = .none := by
  obtain ⟨hpre, -⟩ := hs.1 c hc
  cases n with
  | zero => cases h
  | succ n =>
    cases g with
    | undef s => cases hc
    | sequence c' item mn mx u =>
      cases hc
      rcases (seq_ok hpre).1 h with ⟨h, _⟩ | ⟨_, _, _, h, _⟩
      · exact h
      · cases h
    | tuple c' fs =>
      cases hc
      rcases (tup_ok hpre).1 h with ⟨h, _⟩ | ⟨_, _, _, h, _⟩
      · exact h
      · cases h
    | map c' key value req =>
      cases hc
      rcases (map_ok hpre).1 h with ⟨h, _⟩ | ⟨_, _, _, _, _, _, h, _⟩
      · exact h
      · cases h
    | union c' fs =>
      cases hc
      rcases union_ok.1 h with ⟨h, _⟩ | ⟨hv, pre, g, h⟩
      · exact h
      · rw [((hs.2 _ _ _ _ _ _ _ hv h).1 rfl).2] at hi; cases hi
    | «structure» c' defn strict ko =>
      cases hc
      rcases (struct_ok hpre hs.2).1 h with ⟨h, _⟩ | ⟨_, _, _, _, _, _, h⟩
      · exact h
      · cases h
    | poly c' disc vs strict ko =>
      cases hc
      obtain ⟨rfl, hd, hvs⟩ := hs.2
      rcases (poly_ok hpre (fun e he => (hvs e.1 e.2 he).2.1)).1 h with ⟨h, _⟩ |
        ⟨_, _, _, _, _, _, _, _, _, _, _, _, _, _, _, h⟩
      · exact h
      · cases h
    | leaf c' k =>
      cases hc
      have h' : processLeaf env c k v .inbound ser anc = .ok .none := h
      rcases processLeaf_ok.1 h' with ⟨h1, _⟩ | ⟨h1, v1, v2, v3, hd, hp, hcst, hv, he⟩
      · obtain ⟨_, _, hb, _⟩ := isNull_cases h1
        have : nullView (.leaf c k) v = v := by
          unfold nullView
          split
          · rename_i heq
            cases heq
            have hign := hs.2 hi
            subst hign
            rfl
          · rfl
        rw [this] at hb
        exact (isNone_iff v).1 hb.symm
      · have he : v3 = .none := by
          unfold encodeStep at he
          rw [if_neg (by simp)] at he
          cases he; rfl
        subst he
        have hval := validateLeaf_value hz hv
        cases k <;> (try (simp only [LeafValue, reduceCtorEq, false_and, exists_false, and_false, or_self] at hval; done))
        · have := validateLeaf_fixed (k := .any) (by simp [rewrites]) hv
          subst this
          simp only [preprocess, hpre, Except.ok.injEq] at hp
          subst hp
          have : v = .none := by
            unfold decodeStep at hd
            split at hd
            · simp only [unserializeLeaf, Except.ok.injEq] at hd; exact hd
            · cases hd; rfl
          exact this
        · rename_i vals ign
          have := validateLeaf_fixed (k := .enumeration vals ign) (by simp [rewrites]) hv
          subst this
          simp only [preprocess, hpre, Except.ok.injEq] at hp
          subst hp
          have : v = .none := by
            unfold decodeStep at hd
            split at hd
            · simp only [unserializeLeaf, Except.ok.injEq] at hd; exact hd
            · cases hd; rfl
          exact this
        · have := hs.2.2
          rw [hi] at this; cases this

theorem slots_again {env : Env} (hz : ZoneLaw env) {n : Nat} {defn : List (Str × Field)} {d : List (Val × Val)}
    {ser : Bool} {anc anc' : List Str} {slots : List (Str × Option Val)}
    (hnd : (slots.map (·.1)).Nodup)
    (hs : ∀ name g c, Declares env defn name g c → Settled env g)
    (ih : ∀ name g c v w anc, Declares env defn name g c → process env n g v .inbound ser anc = .ok w →
      ∀ anc', process env n g w .inbound false anc' = .ok w)
    (h : ∀ x ∈ slots, SlotOk env n defn d .inbound ser false anc x.1 x.2) :
    ∀ x ∈ slots, SlotOk env n defn (slotDict slots) .inbound false false anc' x.1 x.2 := by
  intro x hx
  obtain ⟨g, c, hd, hm, hcase⟩ := h x hx
  have hset := hs _ _ _ hd
  have hgc : g.common? = some c := by obtain ⟨_, _, _, h⟩ := hd; exact h
  obtain ⟨-, hign⟩ := hset.1 c hgc
  show SlotOk env n defn (slotDict slots) .inbound false false anc' x.1 x.2
  unfold SlotOk
  refine ⟨g, c, hd, ?_⟩
  rw [given_slotDict hnd hx]
  rcases hcase with ⟨hin, hr⟩ | ⟨v, w, hin, hr, hp⟩
  · rw [hr]
    have key : c.default = .none ∧ c.required = false := by
      cases hg : given d x.1 with
      | some y =>
        rw [hg, memberInput_given] at hin
        split at hin
        · rename_i hc
          rw [Bool.and_eq_true] at hc
          exact hign hc.1
        · cases hin
      | none =>
        rw [hg, memberInput_absent] at hin
        simp only [Bool.false_eq_true, if_false, true_and] at hin
        split at hin
        · cases hin
        · rename_i hdn
          refine ⟨(isNone_iff _).1 (by simpa using hdn), ?_⟩
          cases hreq : c.required
          · rfl
          · exact absurd (by rw [hg]; exact ⟨rfl, rfl, hreq, by rw [memberInput_absent]; simp only [Bool.false_eq_true, if_false, true_and]; rw [if_neg hdn]⟩) hm
    have hnone : memberInput c none .inbound false = none := by
      rw [memberInput_absent, key.1]; simp [Val.isNone]
    exact ⟨by simp [memberMissing, key.2], .inl ⟨hnone, rfl⟩⟩
  · rw [hr]
    have hw : (c.ignoreNull && w.isNone) = false := by
      cases hi : c.ignoreNull
      · rfl
      · simp only [Bool.true_and]
        cases hwn : w.isNone
        · rfl
        · exfalso
          have := (isNone_iff w).1 hwn
          subst this
          have hv := settled_none hz hset hgc hi hp
          subst hv
          cases hg : given d x.1 with
          | some y =>
            rw [hg, memberInput_given] at hin
            split at hin
            · cases hin
            · rename_i hc
              cases hin
              exact hc (by rw [hi]; rfl)
          | none =>
            rw [hg, memberInput_absent] at hin
            simp only [Bool.false_eq_true, if_false, true_and] at hin
            split at hin
            · rename_i hdn
              rw [Option.some.inj hin] at hdn
              exact absurd hdn (by simp [Val.isNone])
            · cases hin
    refine ⟨by simp [memberMissing], .inr ⟨w, w, ?_, rfl, ih _ _ _ _ _ _ hd hp _⟩⟩
    rw [memberInput_given, hw]; rfl

/-- C02. A native value that came out of inbound processing, whether of native or of serialized data, goes
through native inbound processing unchanged, at no greater depth. -/
theorem C02_idempotent (env : Env) (hz : ZoneLaw env) (n : Nat) (f : Field) (hs : Everywhere env (Settled env) f)
    (v w : Val) (ser : Bool) (anc anc' : List Str) (h : process env n f v .inbound ser anc = .ok w) :
    process env n f w .inbound false anc' = .ok w := by
  induction n generalizing f v w anc anc' with
  | zero => cases h
  | succ n ih =>
    cases f with
    | undef s => cases h
    | leaf c k => exact leaf_again hz hs.here h
    | union c fs =>
      rcases union_ok.1 h with ⟨rfl, rfl, hn⟩ | ⟨hv, pre, g, h⟩
      · exact union_ok.2 (.inl ⟨rfl, rfl, hn⟩)
      · obtain ⟨h1, h2⟩ := hs.here.2 _ _ _ _ _ _ _ hv h
        by_cases hw : w = .none
        · subst hw
          exact union_ok.2 (.inl ⟨rfl, rfl, (h1 rfl).1⟩)
        · obtain ⟨⟨f, post, e, hg⟩, _, hp⟩ := h
          exact union_picked hw ⟨⟨f, post, e, hg⟩, h2 hw _, ih g (hs.child (.union (e ▸ by simp) hg)) _ _ _ _ hp⟩
    | sequence c item mn mx u =>
      obtain ⟨hpre, -⟩ := hs.here.1 c rfl
      rw [seq_ok hpre] at h ⊢
      rcases h with ⟨_, h⟩ | ⟨l, rs, rfl, rfl, hlen, h1, h2, h3, h4⟩
      · exact .inl ⟨h.1, h⟩
      · refine .inr ⟨rs, rs, rfl, rfl, rfl, hlen ▸ h1, hlen ▸ h2, fun i x r hx hr => ?_, h4⟩
        rw [hx] at hr; cases hr
        have hi : i < l.length := by
          rw [← hlen]; exact (List.getElem?_eq_some_iff.1 hx).1
        obtain ⟨g, hg, hp⟩ := h3 i _ _ (List.getElem?_eq_getElem hi) hx
        exact ⟨g, hg, ih g (hs.child (.item hg)) _ _ _ _ hp⟩
    | tuple c fs =>
      obtain ⟨hpre, -⟩ := hs.here.1 c rfl
      rw [tup_ok hpre] at h ⊢
      rcases h with ⟨_, h⟩ | ⟨l, rs, hl, rfl, h1, h2, h3⟩
      · exact .inl ⟨h.1, h⟩
      · refine .inr ⟨rs, rs, .inr rfl, rfl, h2.trans h1, rfl, fun i f x hf hx => ?_⟩
        have hi : i < l.length := by
          rw [← h2]; exact (List.getElem?_eq_some_iff.1 hx).1
        obtain ⟨g, r, hg, hr, hp⟩ := h3 i f _ hf (List.getElem?_eq_getElem hi)
        rw [hx] at hr; cases hr
        exact ⟨g, x, hg, hx, ih g (hs.child (.tuple (List.mem_of_getElem? hf) hg)) _ _ _ _ hp⟩
    | map c key value req =>
      obtain ⟨hpre, -⟩ := hs.here.1 c rfl
      rw [map_ok hpre] at h ⊢
      rcases h with ⟨_, h⟩ | ⟨d, es, rfl, hlen, hes, out, rfl, hout, hreq⟩
      · exact .inl ⟨h.1, h⟩
      · -- what is known of every processed entry
        let P : Val → Prop := fun k' => hashable k' = true ∧ (∃ st, keyStep env k' = .ok st) ∧
          ((key = none ∧ ∃ s, k' = .str s) ∨ ∃ kf k0 a, key = some kf ∧ process env n kf k0 .inbound ser a = .ok k')
        let Q : Val → Prop := fun r => ∃ g v0 a, resolve env value = some g ∧ process env n g v0 .inbound ser a = .ok r
        have inv := foldl_dictSet_inv (P := P) (Q := Q) (es.map fun e => (e.1, e.2, true)) [] ⟨.nil, by simp⟩ (by
          intro e he
          obtain ⟨e', he', rfl⟩ := List.mem_map.1 he
          obtain ⟨i, hi, rfl⟩ := List.getElem_of_mem he'
          obtain ⟨k', r, h1, h2, h3, h4⟩ := hes i d[i].1 d[i].2 (List.getElem?_eq_getElem (by omega))
          rw [List.getElem?_eq_getElem hi] at h1
          have h1 := Option.some.inj h1
          obtain ⟨g, st, hg, hst, hp⟩ := h4
          simp only [h1]
          refine ⟨⟨h3, ⟨st, hst⟩, ?_⟩, g, _, _, hg, hp⟩
          generalize d[i].1 = k0 at h2
          cases h2 with
          | text s => exact .inl ⟨rfl, s, rfl⟩
          | field h1 h2 => exact .inr ⟨_, _, _, rfl, h2⟩)
        have hfold : (es.map fun e => (e.1, e.2, true)).foldl (fun a e => dictSet a e.1 e.2.1) [] = out := by
          rw [List.foldl_map, hout]
        rw [hfold] at inv
        refine .inr ⟨out, out, rfl, rfl, fun i k v hkv => ⟨k, v, hkv, ?_⟩, out, rfl, ?_, hreq⟩
        · obtain ⟨⟨h1, ⟨st, h2⟩, h3⟩, g, v0, a, hg, hp⟩ := inv.2 _ (List.mem_of_getElem? hkv)
          refine ⟨?_, h1, g, st, hg, h2, ih g (hs.child (.value hg)) _ _ _ _ hp⟩
          rcases h3 with ⟨rfl, s, hk⟩ | ⟨kf, k0, a, rfl, h3⟩
          · simp only at hk; subst hk; exact .text s
          · exact .field h2 (ih kf (hs.child .key) _ _ _ _ h3)
        · rw [foldl_dictSet_new out [] inv.1 (by simp)]; rfl
    | «structure» c defn strict ko =>
      obtain ⟨hpre, -⟩ := hs.here.1 c rfl
      have hnd : (visited defn ko).Nodup := hs.here.2
      rw [struct_ok hpre hnd] at h ⊢
      rcases h with ⟨_, h⟩ | ⟨d, rfl, hst, slots, h1, h2, rfl⟩
      · exact .inl ⟨h.1, h⟩
      · refine .inr ⟨_, rfl, fun _ e he => ?_, slots, h1, ?_, rfl⟩
        · obtain ⟨x, hx, he⟩ := slotDict_keys he
          exact ⟨x.1, h1 ▸ List.mem_map.2 ⟨x, hx, rfl⟩, he⟩
        · have hch : ∀ name g c', Declares env defn name g c' → Child env (.structure c defn strict ko) g := by
            rintro name g c' ⟨f, hl, hg, _⟩
            exact .member (lookup_mem hl) hg
          refine slots_again hz (h1 ▸ hnd) (fun name g c' hd => (hs.child (hch _ _ _ hd)).here) ?_ h2
          intro name g c' v w a hd hp a'
          exact ih g (hs.child (hch _ _ _ hd)) _ _ _ _ hp
    | poly c disc vs strict ko =>
      obtain ⟨hpre, -⟩ := hs.here.1 c rfl
      obtain ⟨rfl, hdisc, hvs⟩ := hs.here.2
      have hnds : ∀ e ∈ vs, (e.2.map (·.1)).Nodup := fun e he => (hvs e.1 e.2 he).2.1
      rw [poly_ok hpre hnds] at h ⊢
      rcases h with ⟨_, h⟩ | ⟨d, raw, id, defn, rfl, hraw, hnn, hid, hh, hv, hne, hst, slots, h1, h2, rfl⟩
      · exact .inl ⟨h.1, h⟩
      · obtain ⟨e, he, hde⟩ : ∃ e, vs.find? (fun e => pyEq id e.1) = some e ∧ e.2 = defn := by
          unfold variantFor at hv
          rwa [Option.map_eq_some_iff] at hv
        obtain ⟨i, defn'⟩ := e
        simp only at hde
        subst hde
        have hmem : (i, defn') ∈ vs := List.mem_of_find?_eq_some he
        obtain ⟨hi, hnd, m, hlk, htag⟩ := hvs i defn' hmem
        have hidne : id ≠ .none := by
          rintro rfl
          have := List.find?_some he
          simp only at this
          cases i <;> simp [pyEq, numOf] at this hi
        have hch : ∀ name g c', Declares env defn' name g c' → Child env (.poly c disc vs strict []) g := by
          rintro name g c' ⟨f, hl, hg, _⟩
          exact .variant hmem (lookup_mem hl) hg
        have hdm : disc.name.getD [] ∈ defn'.map (·.1) := List.mem_map.2 ⟨_, lookup_mem hlk, rfl⟩
        have hslot : given (slotDict slots) (disc.name.getD []) = some id := by
          have hdm' := hdm
          rw [← h1] at hdm'
          obtain ⟨x, hx, hxn⟩ := List.mem_map.1 hdm'
          have hg := given_slotDict (h1 ▸ hnd) hx

          rw [hxn] at hg
          rw [hg]
          obtain ⟨g, c', ⟨f, hl, hres, hc'⟩, _, hcase⟩ := h2 x hx
          rw [hxn, hlk] at hl
          cases hl
          rw [tag_resolve htag hdisc] at hres
          cases hres
          rw [hxn, hraw, memberInput_given] at hcase
          have : raw.isNone = false := by
            cases hr : raw.isNone
            · rfl
            · exact absurd ((isNone_iff _).1 hr) hnn
          rw [this] at hcase
          simp only [Bool.and_false, Bool.false_eq_true, if_false, reduceCtorEq, false_and, false_or, Option.some.injEq] at hcase
          obtain ⟨v, w, rfl, hw, hp⟩ := hcase
          rw [← tag_same htag hid hp]
          exact hw
        refine .inr ⟨_, id, id, defn', rfl, hslot, hidne, ih disc (hs.child .disc) _ _ _ _ hid, hh, hv, hne,
          fun _ e he => ?_, slots, h1, ?_, rfl⟩
        · obtain ⟨x, hx, he⟩ := slotDict_keys he
          exact ⟨x.1, h1 ▸ List.mem_map.2 ⟨x, hx, rfl⟩, he⟩
        · refine slots_again hz (h1 ▸ hnd) (fun name g c' hd => (hs.child (hch _ _ _ hd)).here) ?_ h2
          intro name g c' v w a hd hp a'
          exact ih g (hs.child (hch _ _ _ hd)) _ _ _ _ hp

/-- The tree schema of Conformance.lean is settled, though it refers to itself. -/
theorem Ex.tree_settled : Everywhere Ex.treeEnv (Settled Ex.treeEnv) Ex.tree := by
  refine .of_closed (fun g => g = Ex.tree ∨ g = .leaf { required := true } (.integer (some 1) none) ∨
    g = .leaf { default := .str c!"none" } (.text none none none true) ∨
    g = .sequence {} (.undef 0) none none false) (.inl rfl) ?_ ?_
  · rintro g (rfl | rfl | rfl | rfl)
    · exact ⟨fun c h => by cases h; exact ⟨rfl, fun h => by cases h⟩,
        (by decide : (visited [(c!"value", Field.undef 0), (c!"label", .undef 0), (c!"kids", .undef 0)] []).Nodup)⟩
    · exact ⟨fun c h => by cases h; exact ⟨rfl, fun h => by cases h⟩, trivial⟩
    · exact ⟨fun c h => by cases h; exact ⟨rfl, fun h => by cases h⟩, fun s h => by cases h⟩
    · exact ⟨fun c h => by cases h; exact ⟨rfl, fun h => by cases h⟩, trivial⟩
  · rintro g h (rfl | rfl | rfl | rfl) hc
    · cases hc with
      | member hm hr =>
        simp only [List.mem_cons, Prod.mk.injEq, List.not_mem_nil, or_false] at hm
        rcases hm with ⟨_, rfl⟩ | ⟨_, rfl⟩ | ⟨_, rfl⟩ <;> cases hr <;> simp
    · cases hc
    · cases hc
    · cases hc with
      | item hr => cases hr; exact .inl rfl

/-- A non-trivial instance: the value processed first is serialized, unstripped and lacks a default. -/
example : process Ex.treeEnv 5 Ex.tree (.dict [(.str c!"value", .int 1), (.str c!"label", .str c!"none"),
      (.str c!"kids", .list [.dict [(.str c!"value", .int 2), (.str c!"label", .str c!"two")]])]) .inbound false [] =
    .ok (.dict [(.str c!"value", .int 1), (.str c!"label", .str c!"none"),
      (.str c!"kids", .list [.dict [(.str c!"value", .int 2), (.str c!"label", .str c!"two")]])]) :=
  C02_idempotent _ (by intro d w d' h; cases h; rfl) 5 _ Ex.tree_settled _ _ _ _ _ Ex.tree_processed

/-- The law about `str.lower` is satisfiable (here: a world in which only ASCII has case). -/
example : LowerLaw { Ex.env.u with ulower := fun c => [c] } := by
  intro c hc
  refine ⟨by simp, fun x hx => ?_⟩
  simp only [List.mem_singleton] at hx
  subst hx
  refine ⟨by simp [lower, lowerChar, isAscii, Nat.not_lt.2 hc], ?_⟩
  cases h : IsEmailSep x
  · rfl
  · simp only [IsEmailSep, List.contains_iff_mem, List.mem_cons, List.not_mem_nil, or_false] at h
    rcases h with rfl | rfl | rfl | rfl | rfl | rfl | rfl | rfl | rfl <;> exact absurd hc (by decide)

/-! ### The restrictions are needed -/

/-- Union: the first pass strips the text, and the second takes it for an ignored enumeration value. -/
theorem C02_union_fails :
    let f : Field := .union {} [.leaf {} (.enumeration [.str c!"a"] [.str c!"x"]), .leaf {} (.text none none none true)]
    process Ex.env 2 f (.str c!" x ") .inbound false [] = .ok (.str c!"x") ∧
    process Ex.env 2 f (.str c!"x") .inbound false [] = .ok .none := ⟨rfl, rfl⟩

/-- `ignore_null` with a default: a null is dropped first, and the default fills the gap at the second pass. -/
theorem C02_ignored_null_default_fails :
    let f : Field := .structure {} [(c!"a", .leaf { ignoreNull := true, default := .int 1 } (.integer none none))] true []
    process Ex.env 2 f (.dict [(.str c!"a", .none)]) .inbound false [] = .ok (.dict []) ∧
    process Ex.env 2 f (.dict []) .inbound false [] = .ok (.dict [(.str c!"a", .int 1)]) := ⟨rfl, rfl⟩

/-- `ignore_null` with `required`: a null is dropped first, and missing at the second pass. -/
theorem C02_ignored_null_required_fails :
    let f : Field := .structure {} [(c!"a", .leaf { ignoreNull := true, required := true } (.integer none none))] true []
    process Ex.env 2 f (.dict [(.str c!"a", .none)]) .inbound false [] = .ok (.dict []) ∧
    ∃ e, process Ex.env 2 f (.dict []) .inbound false [] = .error e := ⟨rfl, _, rfl⟩

/-- An ignored enumeration value becomes a null, which the second pass drops. -/
theorem C02_ignored_value_fails :
    let f : Field := .structure {} [(c!"a", .leaf { ignoreNull := true } (.enumeration [.int 1] [.int 2]))] true []
    process Ex.env 2 f (.dict [(.str c!"a", .int 2)]) .inbound false [] = .ok (.dict [(.str c!"a", .none)]) ∧
    process Ex.env 2 f (.dict [(.str c!"a", .none)]) .inbound false [] = .ok (.dict []) := ⟨rfl, rfl⟩

/-- A constant that stripping changes is only matched by the unstripped value. -/
theorem C02_text_constant_fails :
    let f : Field := .leaf { constant := .str c!" x" } (.text none none none true)
    process Ex.env 1 f (.str c!" x") .inbound false [] = .ok (.str c!"x") ∧
    ∃ e, process Ex.env 1 f (.str c!"x") .inbound false [] = .error e := ⟨rfl, _, rfl⟩

/-- A constant given without a zone is matched by the same time without a zone only, and the result has one. -/
theorem C02_datetime_constant_fails :
    let d : PDateTime := { date := ⟨2020, 1, 1⟩, time := ⟨0, 0, 0, 0⟩, tz := none }
    let f : Field := .leaf { constant := .datetime d } (.datetime none none true)
    process Ex.env 1 f (.datetime d) .inbound false [] = .ok (.datetime { d with tz := some .utc }) ∧
    ∃ e, process Ex.env 1 f (.datetime { d with tz := some .utc }) .inbound false [] = .error e := ⟨rfl, _, rfl⟩

/-- A preprocessor runs at every pass. -/
theorem C02_preprocessor_fails :
    let env := { Ex.env with pre := fun _ v => match v with | .int i => .ok (.int (i + 1)) | v => .ok v }
    let f : Field := .leaf { pre := some 0 } (.integer none none)
    process env 1 f (.int 1) .inbound false [] = .ok (.int 2) ∧
    process env 1 f (.int 2) .inbound false [] = .ok (.int 3) := ⟨rfl, rfl⟩

/-- A preprocessor aside, only an Object can turn something into None; a non-null one then rejects it. -/
theorem C02_object_fails :
    let env := { Ex.env with importObj := fun _ => some .none }
    let f : Field := .leaf { nonnull := true } .object
    process env 1 f (.str c!"x.y") .inbound true [] = .ok .none ∧
    ∃ e, process env 1 f .none .inbound false [] = .error e := ⟨rfl, _, rfl⟩

end Scheme
