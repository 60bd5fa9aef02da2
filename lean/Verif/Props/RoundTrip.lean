import Verif.Props.Idempotence
import Verif.Spec.Faithful

/-! C03: serializing and reading back is native inbound processing. -/

namespace Scheme

theorem preprocess_anc {env : Env} {f : Field} {c : Common} {k : Leaf} {v w : Val} {anc anc' : List Str}
    (hpre : c.pre = none) (h : preprocess env f c k v anc = .ok w) : preprocess env f c k v anc' = .ok w := by
  unfold preprocess at h ⊢
  rw [hpre] at h ⊢
  cases k <;> try exact h
  cases v <;> first | exact h | skip
  all_goals
    simp only at h ⊢
    split at h
    · rename_i he; rw [if_pos he]; exact h
    · cases h

theorem preprocess_anc' {env : Env} {f : Field} {c : Common} {k : Leaf} {v w : Val} {anc anc' : List Str}
    (h : preprocess env f c k v anc = .ok w) : preprocess env f c k v anc' = .ok w := by
  cases hpre : c.pre with
  | none => exact preprocess_anc hpre h
  | some p =>
    unfold preprocess at h ⊢
    rw [hpre] at h ⊢
    simp only at h ⊢
    split at h
    · exact h
    · cases h

/-- Reading a text that decodes to an accepted native value gives that value. -/
theorem leaf_decoded {env : Env} {c : Common} {k : Leaf} {s x : Val} {anc : List Str}
    (hs : isNull (.leaf c k) s (ancOr (.leaf c k) anc) = .ok false)
    (hx : isNull (.leaf c k) x (ancOr (.leaf c k) anc) = .ok false)
    (hd : unserializeLeaf env (.leaf c k) k s (ancOr (.leaf c k) anc) = .ok x)
    (h : processLeaf env c k x .inbound false anc = .ok x) : processLeaf env c k s .inbound true anc = .ok x := by
  rcases processLeaf_ok.1 h with ⟨h1, _⟩ | ⟨_, v1, v2, v3, h1, h2, h3, h4, h5⟩
  · rw [hx] at h1; cases h1
  · rw [processLeaf_ok]
    refine .inr ⟨hs, x, v2, v3, ?_, ?_, h3, h4, ?_⟩
    · unfold decodeStep; rw [if_pos ⟨rfl, rfl⟩]; exact hd
    · unfold decodeStep at h1; rw [if_neg (by simp)] at h1; cases h1; exact h2
    · unfold encodeStep at h5 ⊢; rw [if_neg (by simp)] at h5 ⊢; exact h5

theorem leaf_round {env : Env} (hz : ZoneLaw env) {n : Nat} {c : Common} {k : Leaf} {v s : Val} {anc : List Str}
    (hf : Faithful env (.leaf c k) v) (h : process env (n + 1) (.leaf c k) v .outbound true anc = .ok s) :
    ∃ w, ∀ anc1, process env (n + 1) (.leaf c k) s .inbound true anc1 = .ok w ∧
      process env (n + 1) (.leaf c k) v .inbound false anc1 = .ok w := by
  obtain ⟨hset, hf⟩ := hf
  obtain ⟨hpre, -⟩ := hset.1 c rfl
  have h' : processLeaf env c k v .outbound true anc = .ok s := h
  rcases processLeaf_ok.1 h' with ⟨h1, rfl⟩ | ⟨h1, v1, v2, v3, hd, hp, hc, hv, he⟩
  · obtain ⟨c', hc', hb, h2⟩ := isNull_cases h1
    cases hc'
    refine ⟨.none, fun anc1 => ⟨(process_none_ok rfl).2 ⟨rfl, h2 rfl⟩, ?_⟩⟩
    show processLeaf env c k v .inbound false anc1 = .ok .none
    rw [processLeaf_ok]
    refine .inl ⟨?_, rfl⟩
    unfold isNull
    simp only [Field.common?, ← hb, if_true, h2 rfl, Bool.false_eq_true, if_false]
  · have hd : v1 = v := by
      unfold decodeStep at hd; rw [if_neg (by simp)] at hd; cases hd; rfl
    subst hd
    have he : serOut env (.leaf c k) k v3 (ancOr (.leaf c k) anc) = .ok s := by
      unfold encodeStep at he; rw [if_pos ⟨rfl, rfl⟩] at he; exact he
    have hnat : ∀ anc1, process env (n + 1) (.leaf c k) v1 .inbound false anc1 = .ok v3 := by
      intro anc1
      show processLeaf env c k v1 .inbound false anc1 = .ok v3
      rw [processLeaf_ok]
      refine .inr ⟨isNull_false_of h1 (.inl rfl), v1, v2, v3, ?_, preprocess_anc hpre hp, hc, validateLeaf_anc hv, ?_⟩
      · unfold decodeStep; rw [if_neg (by simp)]
      · unfold encodeStep; rw [if_neg (by simp)]
    have hv1 : v1 ≠ .none := by
      rintro rfl
      obtain ⟨_, _, hb, _⟩ := isNull_cases h1
      unfold nullView at hb
      split at hb
      · split at hb <;> simp [Val.isNone] at hb
      · simp [Val.isNone] at hb
    refine ⟨v3, fun anc1 => ⟨?_, hnat anc1⟩⟩
    have hagain : processLeaf env c k v3 .inbound false anc1 = .ok v3 := leaf_again hz hset (hnat [])
    show processLeaf env c k s .inbound true anc1 = .ok v3
    -- the fields whose serialized form is the value itself
    have same : (∀ x, unserializeLeaf env (.leaf c k) k x (ancOr (.leaf c k) anc1) = .ok x) → s = v3 →
        (v3 = v1 ∨ v3 ≠ .none ∧ ∀ vals ign, k ≠ .enumeration vals ign) →
        processLeaf env c k s .inbound true anc1 = .ok v3 := by
      rintro h1' rfl h3
      exact leaf_decoded (isNull_false_of h1 h3) (isNull_false_of h1 h3) (h1' _) hagain
    have other : s ≠ .none → v3 ≠ .none → (∀ vals ign, k ≠ .enumeration vals ign) →
        unserializeLeaf env (.leaf c k) k s (ancOr (.leaf c k) anc1) = .ok v3 →
        processLeaf env c k s .inbound true anc1 = .ok v3 := by
      intro a b e d
      exact leaf_decoded (isNull_false_of h1 (.inr ⟨a, e⟩)) (isNull_false_of h1 (.inr ⟨b, e⟩)) d hagain
    cases k with
    | any =>
      simp only [serOut, serializeLeaf, Except.ok.injEq] at he
      have := validateLeaf_fixed (by simp [rewrites]) hv
      simp only [preprocess, hpre, Except.ok.injEq] at hp
      exact same (fun x => rfl) he.symm (.inl (this.trans hp.symm))
    | enumeration vals ign =>
      simp only [serOut, serializeLeaf, Except.ok.injEq] at he
      have := validateLeaf_fixed (by simp [rewrites]) hv
      simp only [preprocess, hpre, Except.ok.injEq] at hp
      exact same (fun x => rfl) he.symm (.inl (this.trans hp.symm))
    | object => exact absurd hf hv1
    | definition _ => exact absurd hf hv1
    | error => exact absurd hf hv1
    | surrogate _ => exact absurd hf hv1
    | binary mn mx =>
      obtain ⟨rfl, b, rfl, _⟩ := validate_binary.1 hv
      simp only [serOut, serializeLeaf, Except.ok.injEq] at he
      subst he
      exact other (by simp) (by simp) (by simp) (by simp only [unserializeLeaf, decode_encode])
    | boolean =>
      have : ∃ b, v3 = .bool b := validateLeaf_value hz hv
      obtain ⟨b, rfl⟩ := this
      simp only [serOut, serializeLeaf, Except.ok.injEq] at he
      exact same (fun x => rfl) he.symm (.inr ⟨by simp, by simp⟩)
    | text p mn mx b =>
      obtain ⟨_, t, _, _, rfl, _⟩ := validate_text.1 hv
      simp only [serOut, serializeLeaf, Except.ok.injEq] at he
      exact same (fun x => rfl) he.symm (.inr ⟨by simp, by simp⟩)
    | token seg =>
      obtain ⟨rfl, t, rfl, _⟩ := validate_token.1 hv
      simp only [serOut, serializeLeaf, Except.ok.injEq] at he
      exact same (fun x => rfl) he.symm (.inr ⟨by simp, by simp⟩)
    | uuid =>
      obtain ⟨rfl, t, _, rfl, _⟩ := validate_uuid.1 hv
      simp only [serOut, serializeLeaf, Except.ok.injEq] at he
      exact same (fun x => rfl) he.symm (.inr ⟨by simp, by simp⟩)
    | email mn mx mu e =>
      obtain ⟨rfl, t, rfl, _⟩ := validate_email.1 hv
      simp only [serOut, serializeLeaf, Except.ok.injEq] at he
      exact same (fun x => rfl) he.symm (.inr ⟨by simp, by simp⟩)
    | integer mn mx =>
      obtain ⟨i, rfl, rfl, _⟩ := validate_integer.1 hv
      simp only [serOut, serializeLeaf, Except.ok.injEq] at he
      subst he
      exact other (by simp) (by simp) (by simp) rfl
    | float mn mx =>
      have : ∃ x, v3 = .float x := by
        have := validateLeaf_value hz hv
        obtain ⟨x, h, _⟩ := this
        exact ⟨x, h⟩
      obtain ⟨b, rfl⟩ := this
      simp only [serOut, serializeLeaf, Except.ok.injEq] at he
      subst he
      exact other (by simp) (by simp) (by simp) rfl
    | decimal mn mx =>
      obtain ⟨rfl, d, rfl, _⟩ := validate_decimal.1 hv
      simp only [serOut, serializeLeaf, Except.ok.injEq] at he
      subst he
      exact other (by simp) (by simp) (by simp) (by simp only [unserializeLeaf, toDec, parseDec_decStr])
    | date mn mx =>
      simp only [preprocess, hpre, Except.ok.injEq] at hp
      subst hp
      obtain ⟨rfl, hv⟩ := validate_date.1 hv
      rcases hv with ⟨d, rfl, _⟩ | ⟨d, rfl, _⟩
      · obtain ⟨h1, h2⟩ := hf.2 d rfl
        simp only [serOut, serializeLeaf, Except.ok.injEq] at he
        subst he
        refine other (by simp) (by simp) (by simp) ?_
        rw [dateStr_iso h1 h2]
        simp only [unserializeLeaf, (parseDate_iff _ _ _).2 ⟨dateText_iso env.u h1, h1⟩]
      · exact absurd rfl (hf.1 d)
    | time mn mx =>
      simp only [preprocess, hpre, Except.ok.injEq] at hp
      subst hp
      obtain ⟨t, rfl, _⟩ := (validateLeaf_value hz hv : LeafValue env (.time mn mx) v3)
      cases validateLeaf_fixed (by simp [rewrites]) hv
      obtain ⟨h1, h2⟩ := hf t rfl
      simp only [serOut, serializeLeaf, Except.ok.injEq] at he
      subst he
      refine other (by simp) (by simp) (by simp) ?_
      have ht : ({ t with micro := 0 } : PTime) = t := by cases t; simp only at h2; subst h2; rfl
      have := timeText_iso env.u h1
      rw [ht] at this
      simp only [unserializeLeaf, timeStr_iso h1, (parseTime_iff _ _ _).2 ⟨this, h1⟩]
    | datetime mn mx utc =>
      simp only [preprocess, hpre, Except.ok.injEq] at hp
      subst hp
      obtain ⟨d, d', rfl, hn, rfl, _⟩ := validate_datetime.1 hv
      obtain ⟨x, hx, h1, h2, h3, h4⟩ := hf d rfl d' hn
      have hzone : d'.tz = some (fieldZone utc) := by
        obtain ⟨_, e, h⟩ := C18_zone env hz n c mn mx utc hpre _ _ (by simp) false [[]] (by simp) (hnat [[]])
        cases e; exact h
      have hx' : if utc then x = d' else env.astz d' .utc = .ok x := by
        cases utc
        · exact hx.1
        · exact hx
      have e1 := C18_serialize env n c mn mx utc hpre _ (by simp) d' x hx' hzone h1 h2 h3 _
        (ancOr_ne_nil (.leaf c (.datetime mn mx utc)) anc) (hnat _)
      rw [← process_anc, h] at e1
      cases e1
      have hn' := hnat (ancOr (.leaf c (.datetime mn mx utc)) anc1)
      obtain ⟨s', hs', hr⟩ := C18_round_trip env hz n c mn mx utc hpre hset.2 _ (by simp) d' x hx h1 h2 h3 h4 _ (ancOr_ne_nil _ _) hn'
      rw [C18_serialize env n c mn mx utc hpre _ (by simp) d' x hx' hzone h1 h2 h3 _ (ancOr_ne_nil _ _) hn'] at hs'
      cases hs'
      rw [← process_anc] at hr
      exact hr

/-- What a member gets and gives. -/
def SlotVal (env : Env) (n : Nat) (g : Field) (c : Common) (o : Option Val) (ph : Phase) (ser : Bool) (anc : List Str)
    (r : Option Val) : Prop :=
  ¬ memberMissing c o ph false ∧ ((memberInput c o ph false = none ∧ r = none) ∨
    ∃ v w, memberInput c o ph false = some v ∧ r = some w ∧ process env n g v ph ser anc = .ok w)

theorem slotVal_round {env : Env} {n : Nat} {g : Field} {c : Common} {o : Option Val} {anc : List Str} {r : Option Val}
    (hign : c.ignoreNull = true → c.default = .none ∧ c.required = false)
    (hnone : ∀ v anc, memberInput c o .outbound false = some v → c.ignoreNull = true → process env n g v .outbound true anc = .ok .none → v = .none)
    (hdef : o = none → DefaultAgrees env g c)
    (hio : ∀ v s anc, memberInput c o .outbound false = some v → process env n g v .outbound true anc = .ok s →
      ∀ a1 a2 w, process env n g s .inbound true a1 = .ok w ↔ process env n g v .inbound false a2 = .ok w)
    (h : SlotVal env n g c o .outbound true anc r) (a1 a2 : List Str) (r' : Option Val) :
    SlotVal env n g c r .inbound true a1 r' ↔ SlotVal env n g c o .inbound false a2 r' := by
  obtain ⟨hm, h⟩ := h
  unfold SlotVal
  cases o with
  | none =>
    have hin : memberInput c none .outbound false = none := by rw [memberInput_absent]; simp
    have hr : r = none := by
      rcases h with ⟨_, h⟩ | ⟨v, w, h, _⟩
      · exact h
      · rw [hin] at h; cases h
    subst hr
    rw [memberInput_absent]
    simp only [Bool.false_eq_true, if_false, true_and]
    by_cases hd : (!c.default.isNone) = true
    · have hd' : c.default ≠ .none := by intro h; rw [h] at hd; simp [Val.isNone] at hd
      simp only [hd, if_true, Option.some.injEq, reduceCtorEq, false_and, false_or]
      have hmi : ∀ m : Prop, (m ∧ ∃ v w, c.default = v ∧ r' = some w ∧ process env n g v .inbound true a1 = .ok w) ↔
          (m ∧ ∃ v w, c.default = v ∧ r' = some w ∧ process env n g v .inbound false a2 = .ok w) := by
        intro m
        constructor
        · rintro ⟨hm, v, w, rfl, hw, hp⟩
          exact ⟨hm, _, w, rfl, hw, (hdef rfl hd' n a1 a2 w).1 hp⟩
        · rintro ⟨hm, v, w, rfl, hw, hp⟩
          exact ⟨hm, _, w, rfl, hw, (hdef rfl hd' n a1 a2 w).2 hp⟩
      exact hmi _
    · simp only [hd, Bool.false_eq_true, if_false, reduceCtorEq, false_and, exists_false, or_false]
  | some v =>
    rw [memberInput_given] at h
    have hmiss : ∀ x ph, ¬ memberMissing c (some x) ph false := fun x ph h => by cases h.1
    by_cases hi : (c.ignoreNull && v.isNone) = true
    · rw [if_pos hi] at h
      have hr : r = none := by
        rcases h with ⟨_, h⟩ | ⟨v, w, h, _⟩
        · exact h
        · cases h
      subst hr
      rw [Bool.and_eq_true] at hi
      obtain ⟨h1, h2⟩ := hign hi.1
      rw [memberInput_given, memberInput_absent, hi.1, hi.2, h1]
      simp [memberMissing, h2, Val.isNone]
    · rw [if_neg hi] at h
      simp only [reduceCtorEq, false_and, false_or, Option.some.injEq] at h
      obtain ⟨_, s, rfl, rfl, hp⟩ := h
      have hs : ¬ (c.ignoreNull && s.isNone) = true := by
        intro hs
        rw [Bool.and_eq_true] at hs
        have := (isNone_iff s).1 hs.2
        subst this
        have := hnone _ _ (by rw [memberInput_given, if_neg hi]) hs.1 hp
        subst this
        exact hi (by rw [hs.1]; rfl)
      rw [memberInput_given, memberInput_given, if_neg hi, if_neg hs]
      have := hio v s anc (by rw [memberInput_given, if_neg hi]) hp a1 a2
      simp only [hmiss, not_false_eq_true, true_and, reduceCtorEq, false_and, false_or, Option.some.injEq]
      constructor
      · rintro ⟨_, w, rfl, hw, h⟩; exact ⟨_, w, rfl, hw, (this w).1 h⟩
      · rintro ⟨_, w, rfl, hw, h⟩; exact ⟨_, w, rfl, hw, (this w).2 h⟩

/-- A settled field that ignores nulls serializes only None to None. -/
theorem faithful_none {env : Env} {n : Nat} {g : Field} {c : Common} {v : Val} (hs : Faithful env g v)
    (hc : g.common? = some c) (hi : c.ignoreNull = true) (hz : ZoneLaw env) {anc : List Str}
    (h : process env n g v .outbound true anc = .ok .none) : v = .none := by
  obtain ⟨hset, hf⟩ := hs
  obtain ⟨hpre, -⟩ := hset.1 c hc
  cases n with
  | zero => cases h
  | succ n =>
    cases g with
    | undef s => cases hc
    | sequence c' item mn mx u =>
      cases hc
      rcases (seq_ok hpre).1 h with ⟨h, _⟩ | ⟨_, _, _, h, _⟩
      · exact h
      · cases h
    | tuple c' fs =>
      cases hc
      rcases (tup_ok hpre).1 h with ⟨h, _⟩ | ⟨_, _, _, h, _⟩
      · exact h
      · cases h
    | map c' key value req =>
      cases hc
      rcases (map_ok hpre).1 h with ⟨h, _⟩ | ⟨_, _, _, _, _, _, h, _⟩
      · exact h
      · cases h
    | union c' fs =>
      cases hc
      rcases union_ok.1 h with ⟨h, _⟩ | ⟨hv, pre, g, h⟩
      · exact h
      · exact absurd rfl (hf hv _ _ _ _ _ h).1
    | «structure» c' defn strict ko =>
      cases hc
      rcases (struct_ok hpre hset.2).1 h with ⟨h, _⟩ | ⟨_, _, _, _, _, _, h⟩
      · exact h
      · cases h
    | poly c' disc vs strict ko =>
      cases hc
      obtain ⟨rfl, hd, hvs⟩ := hset.2
      rcases (poly_ok hpre (fun e he => (hvs e.1 e.2 he).2.1)).1 h with ⟨h, _⟩ |
        ⟨_, _, _, _, _, _, _, _, _, _, _, _, _, _, _, h⟩
      · exact h
      · cases h
    | leaf c' k =>
      obtain ⟨w, hw⟩ := leaf_round hz ⟨hset, hf⟩ h
      have h1 := (hw []).1
      have h2 := (hw []).2
      have : w = .none := by
        cases hc
        exact ((process_none_ok rfl).1 h1).1
      subst this
      exact settled_none hz hset hc hi h2

theorem slots_round {env : Env} (hz : ZoneLaw env) {n : Nat} {defn : List (Str × Field)} {d : List (Val × Val)}
    {anc : List Str} {slots : List (Str × Option Val)} (hnd : (slots.map (·.1)).Nodup)
    (hs : ∀ name g c v, Declares env defn name g c → memberInput c (given d name) .outbound false = some v →
      Faithful env g v)
    (hset : ∀ name g c, Declares env defn name g c → MemberFaithful env g c (given d name))
    (ih : ∀ name g c v, Declares env defn name g c → memberInput c (given d name) .outbound false = some v →
      ∀ s anc, process env n g v .outbound true anc = .ok s →
      ∀ a1 a2 w, process env n g s .inbound true a1 = .ok w ↔ process env n g v .inbound false a2 = .ok w)
    (h : ∀ x ∈ slots, SlotOk env n defn d .outbound true false anc x.1 x.2) (a1 a2 : List Str)
    (slots' : List (Str × Option Val)) (hn : slots'.map (·.1) = slots.map (·.1)) :
    (∀ x ∈ slots', SlotOk env n defn (slotDict slots) .inbound true false a1 x.1 x.2) ↔
      ∀ x ∈ slots', SlotOk env n defn d .inbound false false a2 x.1 x.2 := by
  have key : ∀ x ∈ slots', SlotOk env n defn (slotDict slots) .inbound true false a1 x.1 x.2 ↔
      SlotOk env n defn d .inbound false false a2 x.1 x.2 := by
    intro x hx
    obtain ⟨y, hy, hxy⟩ : ∃ y ∈ slots, y.1 = x.1 := by
      have : x.1 ∈ slots.map (·.1) := hn ▸ List.mem_map.2 ⟨x, hx, rfl⟩
      obtain ⟨y, hy, h⟩ := List.mem_map.1 this
      exact ⟨y, hy, h⟩
    have hg := given_slotDict hnd hy
    rw [hxy] at hg
    have hy' := h y hy
    rw [hxy] at hy'
    obtain ⟨g, c, hd, hsv⟩ := hy'
    have hgc : g.common? = some c := by obtain ⟨_, _, _, h⟩ := hd; exact h
    have huniq : ∀ g' c', Declares env defn x.1 g' c' → g' = g ∧ c' = c := by
      rintro g' c' ⟨f, h1, h2, h3⟩
      obtain ⟨f', h1', h2', h3'⟩ := hd
      rw [h1] at h1'; cases h1'
      rw [h2] at h2'; cases h2'
      rw [h3] at h3'; cases h3'
      exact ⟨rfl, rfl⟩
    unfold SlotOk
    rw [hg]
    have e : ∀ o ph ser a r, (∃ g' c', Declares env defn x.1 g' c' ∧ ¬ memberMissing c' o ph false ∧
        ((memberInput c' o ph false = none ∧ r = none) ∨ ∃ v w, memberInput c' o ph false = some v ∧ r = some w ∧
          process env n g' v ph ser (a ++ ['.' :: x.1]) = .ok w)) ↔ SlotVal env n g c o ph ser (a ++ ['.' :: x.1]) r := by
      intro o ph ser a r
      constructor
      · rintro ⟨g', c', hd', h⟩
        obtain ⟨rfl, rfl⟩ := huniq _ _ hd'
        exact h
      · intro h; exact ⟨g, c, hd, h⟩
    rw [e, e]
    exact slotVal_round (hset _ _ _ hd).1 (fun v a hv hi hp => faithful_none (hs _ _ _ _ hd hv) hgc hi hz hp)
      (hset _ _ _ hd).2 (fun v s anc hv => ih _ _ _ v hd hv s anc) hsv _ _ _
  exact ⟨fun h x hx => (key x hx).1 (h x hx), fun h x hx => (key x hx).2 (h x hx)⟩

theorem key_round {env : Env} {n : Nat} {key : Option Field} {k s : Val} {anc : List Str}
    (ih : ∀ kf, key = some kf → ∀ s anc, process env n kf k .outbound true anc = .ok s →
      ∀ a1 a2 w, process env n kf s .inbound true a1 = .ok w ↔ process env n kf k .inbound false a2 = .ok w)
    (h : KeyOk env n .outbound true anc key k s) (hst : ∃ st, keyStep env s = .ok st) (a1 a2 : List Str) (w : Val) :
    KeyOk env n .inbound true a1 key s w ↔ KeyOk env n .inbound false a2 key k w := by
  cases h with
  | text t =>
    constructor
    · intro h; cases h; exact .text t
    · intro h; cases h; exact .text t
  | field h1 h2 =>
    constructor
    · intro h
      cases h with
      | field h3 h4 => exact .field h1 ((ih _ rfl _ _ h2 _ _ _).1 h4)
    · intro h
      cases h with
      | field h3 h4 =>
        obtain ⟨st, hst⟩ := hst
        exact .field hst ((ih _ rfl _ _ h2 _ _ _).2 h4)

/-- C03. If `v` serializes to `s`, then reading `s` back does what native inbound processing of `v` does: it gives
the same value or, when that is rejected, is rejected. -/
theorem C03_serialize_unserialize (env : Env) (hz : ZoneLaw env) (n : Nat) (f : Field) (v s : Val) (anc : List Str)
    (hf : ∀ g w, Involves env .outbound f v g w → Faithful env g w)
    (h : process env n f v .outbound true anc = .ok s) (a1 a2 : List Str) (w : Val) :
    process env n f s .inbound true a1 = .ok w ↔ process env n f v .inbound false a2 = .ok w := by
  induction n generalizing f v s anc a1 a2 w with
  | zero => cases h
  | succ n ih =>
    obtain ⟨hset, hfv⟩ := hf f v .here
    have ih' : ∀ g x, Calls env .outbound false f v g x → ∀ s anc, process env n g x .outbound true anc = .ok s →
        ∀ a1 a2 w, process env n g s .inbound true a1 = .ok w ↔ process env n g x .inbound false a2 = .ok w :=
      fun g x hc s anc h a1 a2 w => ih g x s anc (fun g' w' hi => hf g' w' (.call hc hi)) h a1 a2 w
    cases f with
    | undef s => cases h
    | union c fs =>
      rcases union_ok.1 h with ⟨rfl, rfl, _⟩ | ⟨hv, pre, g, h⟩
      · rw [union_ok, union_ok]; simp
      · obtain ⟨hs, hw⟩ := hfv hv _ _ _ _ _ h
        obtain ⟨hg, _, hp⟩ := h
        have hcall : Calls env .outbound false (.union c fs) v g v := by
          obtain ⟨f, post, e, hg⟩ := hg
          exact .union (e ▸ by simp) hg
        obtain ⟨⟨w', h1⟩, h2, h3⟩ := hw (ancOr (.union c fs) a2)
        have h4 := (ih' g v hcall s _ hp (ancOr (.union c fs) a1) (ancOr (.union c fs) a2) w').2 h1
        rw [union_picked hs ⟨hg, (hw _).2.2, h4⟩, union_picked hv ⟨hg, h2, h1⟩]
    | leaf c k =>
      obtain ⟨w', hw⟩ := leaf_round hz ⟨hset, hfv⟩ h
      rw [(hw a1).1, (hw a2).2]
    | sequence c item mn mx u =>
      obtain ⟨hpre, -⟩ := hset.1 c rfl
      have hci : containerInput env c v = some v := by unfold containerInput; rw [hpre]
      rw [seq_ok hpre] at h
      rw [seq_ok hpre, seq_ok hpre]
      rcases h with ⟨rfl, rfl, _⟩ | ⟨l, rs, rfl, rfl, hlen, _, _, h3, _⟩
      · simp
      · simp only [reduceCtorEq, false_and, false_or, Val.list.injEq]
        have key : ∀ (qs : List Val), qs.length = l.length → ((∀ (i : Nat) x r, rs[i]? = some x → qs[i]? = some r →
            ∃ g, resolve env item = some g ∧
              process env n g x .inbound true (ancOr (.sequence c item mn mx u) a1 ++ [idxStep i]) = .ok r) ↔
            (∀ (i : Nat) x r, l[i]? = some x → qs[i]? = some r → ∃ g, resolve env item = some g ∧
              process env n g x .inbound false (ancOr (.sequence c item mn mx u) a2 ++ [idxStep i]) = .ok r)) := by
          intro qs hq
          constructor
          · intro H i x r hx hr
            have hi : i < rs.length := by rw [hlen]; exact (List.getElem?_eq_some_iff.1 hx).1
            obtain ⟨g, hg, hp⟩ := H i _ r (List.getElem?_eq_getElem hi) hr
            obtain ⟨g', hg', ho⟩ := h3 i x _ hx (List.getElem?_eq_getElem hi)
            rw [hg] at hg'; cases hg'
            exact ⟨g, hg, (ih' g x (.item hci (List.mem_of_getElem? hx) hg) _ _ ho _ _ _).1 hp⟩
          · intro H i y r hy hr
            have hi : i < l.length := by rw [← hlen]; exact (List.getElem?_eq_some_iff.1 hy).1
            obtain ⟨g, hg, hp⟩ := H i _ r (List.getElem?_eq_getElem hi) hr
            obtain ⟨g', hg', ho⟩ := h3 i _ _ (List.getElem?_eq_getElem hi) hy
            rw [hg] at hg'; cases hg'
            exact ⟨g, hg, (ih' g _ (.item hci (List.getElem_mem hi) hg) _ _ ho _ _ _).2 hp⟩
        constructor
        · rintro ⟨_, qs, rfl, rfl, h1, h2, h4, h5, h6⟩
          exact ⟨l, qs, rfl, rfl, h1.trans hlen, hlen ▸ h2, hlen ▸ h4, (key qs (h1.trans hlen)).1 h5, h6⟩
        · rintro ⟨_, qs, rfl, rfl, h1, h2, h4, h5, h6⟩
          exact ⟨rs, qs, rfl, rfl, h1.trans hlen.symm, hlen ▸ h2, hlen ▸ h4, (key qs h1).2 h5, h6⟩
    | tuple c fs =>
      obtain ⟨hpre, -⟩ := hset.1 c rfl
      have hci : containerInput env c v = some v := by unfold containerInput; rw [hpre]
      rw [tup_ok hpre] at h
      rw [tup_ok hpre, tup_ok hpre]
      rcases h with ⟨rfl, rfl, _⟩ | ⟨l, rs, hl, rfl, h1, h2, h3⟩
      · simp
      · have hvn : v ≠ .none := by rcases hl with rfl | rfl <;> simp
        simp only [reduceCtorEq, false_and, false_or, Val.tuple.injEq, hvn]
        have hcall : ∀ (i : Nat) f x g, fs[i]? = some f → l[i]? = some x → resolve env f = some g →
            Calls env .outbound false (.tuple c fs) v g x := by
          intro i f x g hfi hx hg
          refine .tuple hci hl (List.mem_of_getElem? (i := i) ?_) hg
          rw [List.getElem?_zip_eq_some]
          exact ⟨hfi, hx⟩
        constructor
        · rintro ⟨_, qs, rfl, rfl, h4, h5, h6⟩
          refine ⟨l, qs, hl, rfl, h1, h5.trans h2, fun i f x hfi hx => ?_⟩
          obtain ⟨g, r, hg, hr, ho⟩ := h3 i f x hfi hx
          obtain ⟨g', q, hg', hq, hp⟩ := h6 i f r hfi hr
          rw [hg] at hg'; cases hg'
          exact ⟨g, q, hg, hq, (ih' g x (hcall i f x g hfi hx hg) _ _ ho _ _ _).1 hp⟩
        · rintro ⟨l', qs, hl', rfl, h4, h5, h6⟩
          have : l' = l := by
            rcases hl with rfl | rfl <;> rcases hl' with e | e <;> cases e <;> rfl
          subst this
          refine ⟨rs, qs, rfl, rfl, h2.trans h1, h5.trans h2.symm, fun i f y hfi hy => ?_⟩
          have hi : i < l'.length := by rw [← h2]; exact (List.getElem?_eq_some_iff.1 hy).1
          obtain ⟨g, r, hg, hr, ho⟩ := h3 i f _ hfi (List.getElem?_eq_getElem hi)
          rw [hy] at hr; cases hr
          obtain ⟨g', q, hg', hq, hp⟩ := h6 i f _ hfi (List.getElem?_eq_getElem hi)
          rw [hg] at hg'; cases hg'
          exact ⟨g, q, hg, hq, (ih' g _ (hcall i f _ g hfi (List.getElem?_eq_getElem hi) hg) _ _ ho _ _ _).2 hp⟩
    | map c key value req =>
      obtain ⟨hpre, -⟩ := hset.1 c rfl
      have hci : containerInput env c v = some v := by unfold containerInput; rw [hpre]
      rw [map_ok hpre] at h
      rw [map_ok hpre, map_ok hpre]
      rcases h with ⟨rfl, rfl, _⟩ | ⟨d, es, rfl, hlen, hes, out, rfl, hout, hreq⟩
      · simp
      · simp only [reduceCtorEq, false_and, false_or, Val.dict.injEq]
        have hd := hfv d rfl
        have hpw : es.Pairwise fun a b => pyEq b.1 a.1 = false := by
          rw [List.pairwise_iff_getElem] at hd ⊢
          intro i j hi hj hij
          obtain ⟨k1, r1, e1, o1, _⟩ := hes i d[i].1 d[i].2 (List.getElem?_eq_getElem (by omega))
          obtain ⟨k2, r2, e2, o2, _⟩ := hes j d[j].1 d[j].2 (List.getElem?_eq_getElem (by omega))
          rw [List.getElem?_eq_getElem hi] at e1
          rw [List.getElem?_eq_getElem hj] at e2
          have e1 := Option.some.inj e1
          have e2 := Option.some.inj e2
          rw [e1, e2]
          exact hd i j (by omega) (by omega) hij n .outbound true _ _ _ _ (.inl ⟨rfl, rfl⟩) o1 o2
        rw [foldl_dictSet_new es [] hpw (by simp), List.nil_append] at hout
        subst hout
        have entry : ∀ (i : Nat) k x s o, d[i]? = some (k, x) → out[i]? = some (s, o) → ∀ k' r,
            (KeyOk env n .inbound true (ancOr (.map c key value req) a1) key s k' ∧ hashable k' = true ∧
              EntryOk env n .inbound true (ancOr (.map c key value req) a1) value k' o r) ↔
            (KeyOk env n .inbound false (ancOr (.map c key value req) a2) key k k' ∧ hashable k' = true ∧
              EntryOk env n .inbound false (ancOr (.map c key value req) a2) value k' x r) := by
          intro i k x s o hi ho k' r
          obtain ⟨s', o', e, hk, hh, g, st, hg, hst, hp⟩ := hes i k x hi
          rw [ho] at e; cases e
          have hm := List.mem_of_getElem? hi
          have hkr := key_round (key := key) (fun kf hkf => ih' kf k (by subst hkf; exact .key hci hm)) hk ⟨st, hst⟩
            (ancOr (.map c key value req) a1) (ancOr (.map c key value req) a2) k'
          have hvr := ih' g x (.value hci hm hg) _ _ hp
          constructor
          · rintro ⟨h1, h2, g', st', hg', hst', h3⟩
            rw [hg] at hg'; cases hg'
            exact ⟨hkr.1 h1, h2, g, st', hg, hst', (hvr _ _ _).1 h3⟩
          · rintro ⟨h1, h2, g', st', hg', hst', h3⟩
            rw [hg] at hg'; cases hg'
            exact ⟨hkr.2 h1, h2, g, st', hg, hst', (hvr _ _ _).2 h3⟩
        constructor
        · rintro ⟨_, qs, rfl, hq, h1, h2⟩
          refine ⟨d, qs, rfl, hq.trans hlen, fun i k x hi => ?_, h2⟩
          obtain ⟨s, o, ho, _⟩ := hes i k x hi
          obtain ⟨k', r, hr, h⟩ := h1 i s o ho
          exact ⟨k', r, hr, (entry i k x s o hi ho k' r).1 h⟩
        · rintro ⟨_, qs, rfl, hq, h1, h2⟩
          refine ⟨out, qs, rfl, hq.trans hlen.symm, fun i s o ho => ?_, h2⟩
          have hi : i < d.length := by rw [← hlen]; exact (List.getElem?_eq_some_iff.1 ho).1
          obtain ⟨k', r, hr, h⟩ := h1 i d[i].1 d[i].2 (List.getElem?_eq_getElem hi)
          exact ⟨k', r, hr, (entry i _ _ s o (List.getElem?_eq_getElem hi) ho k' r).2 h⟩
    | «structure» c defn strict ko =>
      obtain ⟨hpre, -⟩ := hset.1 c rfl
      have hci : containerInput env c v = some v := by unfold containerInput; rw [hpre]
      have hnd : (visited defn ko).Nodup := hset.2
      rw [struct_ok hpre hnd] at h
      rw [struct_ok hpre hnd, struct_ok hpre hnd]
      rcases h with ⟨rfl, rfl, _⟩ | ⟨d, rfl, hst, slots, h1, h2, rfl⟩
      · simp
      · simp only [reduceCtorEq, false_and, false_or, Val.dict.injEq]
        have hcall : ∀ name g c' x, Declares env defn name g c' → memberInput c' (given d name) .outbound false = some x →
            Calls env .outbound false (.structure c defn strict ko) (.dict d) g x := by
          rintro name g c' x ⟨f, hl, hg, hc'⟩ hin
          exact .member hci (lookup_mem hl) hg hc' (.inl rfl) hin
        have key := slots_round hz (h1 ▸ hnd) (fun name g c' x hd hin => hf _ _ (.call (hcall _ _ _ _ hd hin) .here))
          (fun name g c' hd => hfv d rfl name g c' hd) (fun name g c' x hd hin => ih' g x (hcall _ _ _ _ hd hin)) h2
          (ancOr (.structure c defn strict ko) a1) (ancOr (.structure c defn strict ko) a2)
        constructor
        · rintro ⟨_, rfl, _, slots', h3, h4, rfl⟩
          exact ⟨d, rfl, hst, slots', h3, (key slots' (h3.trans h1.symm)).1 h4, rfl⟩
        · rintro ⟨_, rfl, _, slots', h3, h4, rfl⟩
          refine ⟨_, rfl, fun _ e he => ?_, slots', h3, (key slots' (h3.trans h1.symm)).2 h4, rfl⟩
          obtain ⟨x, hx, he⟩ := slotDict_keys he
          exact ⟨x.1, h1 ▸ List.mem_map.2 ⟨x, hx, rfl⟩, he⟩
    | poly c disc vs strict ko =>
      obtain ⟨hpre, -⟩ := hset.1 c rfl
      have hci : containerInput env c v = some v := by unfold containerInput; rw [hpre]
      obtain ⟨rfl, hdisc, hvs⟩ := hset.2
      have hnds : ∀ e ∈ vs, (e.2.map (·.1)).Nodup := fun e he => (hvs e.1 e.2 he).2.1
      rw [poly_ok hpre hnds] at h
      rw [poly_ok hpre hnds, poly_ok hpre hnds]
      rcases h with ⟨rfl, rfl, _⟩ | ⟨d, raw, id, defn, rfl, hraw, hnn, hid, hh, hv, hne, hst, slots, h1, h2, rfl⟩
      · simp
      · simp only [reduceCtorEq, false_and, false_or, Val.dict.injEq]
        obtain ⟨hmf, hvar⟩ := hfv d rfl
        obtain ⟨e, he, hde⟩ : ∃ e, vs.find? (fun e => pyEq id e.1) = some e ∧ e.2 = defn := by
          have hv' := hv
          unfold variantFor at hv'
          rwa [Option.map_eq_some_iff] at hv'
        obtain ⟨i, defn'⟩ := e
        simp only at hde
        subst hde
        have hmem : (i, defn') ∈ vs := List.mem_of_find?_eq_some he
        obtain ⟨hi, hnd, m, hlk, htag⟩ := hvs i defn' hmem
        have hidne : id ≠ .none := by
          rintro rfl
          have := List.find?_some he
          simp only at this
          cases i <;> simp [pyEq, numOf] at this hi
        have hdm : disc.name.getD [] ∈ defn'.map (·.1) := List.mem_map.2 ⟨_, lookup_mem hlk, rfl⟩
        have hslot : given (slotDict slots) (disc.name.getD []) = some id := by
          have hdm' := hdm
          rw [← h1] at hdm'
          obtain ⟨x, hx, hxn⟩ := List.mem_map.1 hdm'
          have hg := given_slotDict (h1 ▸ hnd) hx
          rw [hxn] at hg
          rw [hg]
          obtain ⟨g, c', ⟨f, hl, hres, hc'⟩, _, hcase⟩ := h2 x hx
          rw [hxn, hlk] at hl
          cases hl
          rw [tag_resolve htag hdisc] at hres
          cases hres
          rw [hxn, hraw, memberInput_given] at hcase
          have : raw.isNone = false := by
            cases hr : raw.isNone
            · rfl
            · exact absurd ((isNone_iff _).1 hr) hnn
          rw [this] at hcase
          simp only [Bool.and_false, Bool.false_eq_true, if_false, reduceCtorEq, false_and, false_or, Option.some.injEq] at hcase
          obtain ⟨v, w, rfl, hw, hp⟩ := hcase
          rw [← tag_same htag hid hp]
          exact hw
        have hdr := ih' disc raw (.disc hci hraw) _ _ hid
        have hcall : ∀ name g c' x, Declares env defn' name g c' → memberInput c' (given d name) .outbound false = some x →
            Calls env .outbound false (.poly c disc vs strict []) (.dict d) g x := by
          rintro name g c' x ⟨f, hl, hg, hc'⟩ hin
          exact .variant hci hmem (lookup_mem hl) hg hc' (.inl rfl) hin
        have key := slots_round hz (h1 ▸ hnd) (fun name g c' x hd hin => hf _ _ (.call (hcall _ _ _ _ hd hin) .here))
          (fun name g c' hd => hmf i defn' hmem name g c' hd) (fun name g c' x hd hin => ih' g x (hcall _ _ _ _ hd hin)) h2
          (ancOr (.poly c disc vs strict []) a1) (ancOr (.poly c disc vs strict []) a2)
        constructor
        · rintro ⟨_, raw', id', defn2, rfl, hraw', _, hid', hh', hv', hne', _, slots', h3, h4, rfl⟩
          rw [hslot] at hraw'; cases hraw'
          have hid2 := (hdr _ (ancOr (.poly c disc vs strict []) a2 ++ ['.' :: disc.name.getD []]) _).1 hid'
          have e := hvar raw n _ _ _ _ hraw hid hid2
          rw [hv, hv'] at e
          cases e
          exact ⟨d, raw, id', defn', rfl, hraw, hnn, hid2, hh', hv', hne', hst, slots', h3,
            (key slots' (h3.trans h1.symm)).1 h4, rfl⟩
        · rintro ⟨_, raw', id', defn2, rfl, hraw', _, hid', hh', hv', hne', _, slots', h3, h4, rfl⟩
          rw [hraw] at hraw'; cases hraw'
          have e := hvar raw n _ _ _ _ hraw hid hid'
          rw [hv, hv'] at e
          cases e
          refine ⟨_, id, id', defn', rfl, hslot, hidne, (hdr _ _ _).2 hid', hh', hv', hne', fun _ e he => ?_, slots', h3,
            (key slots' (h3.trans h1.symm)).2 h4, rfl⟩
          obtain ⟨x, hx, he⟩ := slotDict_keys he
          exact ⟨x.1, h1 ▸ List.mem_map.2 ⟨x, hx, rfl⟩, he⟩

/-- C03. A value accepted once survives being serialized and read back unchanged. -/
theorem C03_round_trip (env : Env) (hz : ZoneLaw env) (n : Nat) (f : Field) (hs : Everywhere env (Settled env) f)
    (u v s : Val) (ser : Bool) (a0 a1 a2 : List Str) (hv : process env n f u .inbound ser a0 = .ok v)
    (hf : ∀ g w, Involves env .outbound f v g w → Faithful env g w)
    (h : process env n f v .outbound true a1 = .ok s) : process env n f s .inbound true a2 = .ok v :=
  (C03_serialize_unserialize env hz n f v s a1 hf h a2 a2 v).2 (C02_idempotent env hz n f hs u v ser a0 a2 hv)

/-- Text, numbers, flags and None mean the same as native and as serialized defaults. -/
theorem defaultAgrees_text {env : Env} {c : Common} {p mn mx b} : DefaultAgrees env (.leaf c (.text p mn mx b)) c := by
  intro hne m a1 a2 r
  cases m with
  | zero => exact ⟨fun h => (by cases h), fun h => (by cases h)⟩
  | succ m =>
    show processLeaf env c _ _ .inbound true a1 = .ok r ↔ processLeaf env c _ _ .inbound false a2 = .ok r
    rw [processLeaf_ok, processLeaf_ok]
    have e1 : ∀ a, isNull (.leaf c (.text p mn mx b)) c.default a = .ok false :=
      fun a => isNull_notNull (NotNull.mk' hne (by simp))
    simp only [e1, Except.ok.injEq, Bool.false_eq_true, false_and, false_or, true_and, decodeStep, encodeStep,
      and_self, if_true, reduceCtorEq, and_false, if_false, unserializeLeaf]
    constructor
    · rintro ⟨v1, v2, v3, h1, h2, h3, h4, h5⟩
      exact ⟨v1, v2, v3, h1, preprocess_anc' h2, h3, validateLeaf_anc h4, h5⟩
    · rintro ⟨v1, v2, v3, h1, h2, h3, h4, h5⟩
      exact ⟨v1, v2, v3, h1, preprocess_anc' h2, h3, validateLeaf_anc h4, h5⟩

/-- `Structure({'days': Sequence(Date()), 'label': Text(default='none')})` -/
def Ex.days : Field := .structure {} [(c!"days", .sequence {} (.leaf {} (.date none none)) none none true),
  (c!"label", .leaf { default := .str c!"none" } (.text none none none true))] true []

def Ex.daysValue : Val := .dict [(.str c!"days", .list [.date ⟨2020, 2, 29⟩, .date ⟨2021, 1, 1⟩])]

theorem Ex.days_faithful (g : Field) (w : Val) (h : Involves Ex.env .outbound Ex.days Ex.daysValue g w) :
    Faithful Ex.env g w := by
  have settled : ∀ c k, c.pre = none → c.ignoreNull = false → k = Leaf.date none none →
      Settled Ex.env (.leaf c k) := by
    rintro c k h1 h2 rfl
    exact ⟨fun c' h => by cases h; exact ⟨h1, fun h => by rw [h2] at h; cases h⟩, trivial⟩
  cases h with
  | here =>
    refine ⟨⟨fun c h => by cases h; exact ⟨rfl, fun h => by cases h⟩,
      (by decide : (visited [(c!"days", Field.undef 0), (c!"label", .undef 0)] []).Nodup)⟩, ?_⟩
    intro d hd name g c hdecl
    cases hd
    obtain ⟨f, hl, hr, hc⟩ := hdecl
    have hm := lookup_mem hl
    simp only [List.mem_cons, Prod.mk.injEq, List.not_mem_nil, or_false] at hm
    rcases hm with ⟨rfl, rfl⟩ | ⟨rfl, rfl⟩
    · cases hr; cases hc
      exact ⟨fun h => (by cases h), fun h => (by cases h)⟩
    · cases hr; cases hc
      exact ⟨fun h => (by cases h), fun _ => defaultAgrees_text⟩
  | call hc hi =>
    cases hc with
    | member h1 h2 h3 h4 h5 h6 =>
      cases h1
      simp only [List.mem_cons, Prod.mk.injEq, List.not_mem_nil, or_false] at h2
      rcases h2 with ⟨rfl, rfl⟩ | ⟨rfl, rfl⟩
      · cases h3; cases h4
        rcases h5 with rfl | rfl
        · cases h6
          cases hi with
          | here => exact ⟨⟨fun c h => by cases h; exact ⟨rfl, fun h => by cases h⟩, trivial⟩, trivial⟩
          | call hc hi =>
            cases hc with
            | item h1 h2 h3 =>
              cases h1; cases h3
              cases hi with
              | call hc _ => cases hc
              | here =>
                refine ⟨settled _ _ rfl rfl rfl, ?_⟩
                simp only [List.mem_cons, List.not_mem_nil, or_false] at h2
                rcases h2 with rfl | rfl
                · exact ⟨by simp, fun d hd => by cases hd; exact ⟨by simp [CalendarDate, monthLength], .inr (by decide)⟩⟩
                · exact ⟨by simp, fun d hd => by cases hd; exact ⟨by simp [CalendarDate, monthLength], .inr (by decide)⟩⟩
        · cases h6
      · cases h3; cases h4
        rcases h5 with rfl | rfl <;> cases h6

/-- A non-trivial instance: the serialized form is read back, and the default filled in. -/
example (w : Val) :
    process Ex.env 3 Ex.days (.dict [(.str c!"days", .list [.str c!"2020-02-29", .str c!"2021-01-01"])]) .inbound true [] = .ok w ↔
    process Ex.env 3 Ex.days Ex.daysValue .inbound false [] = .ok w :=
  C03_serialize_unserialize _ (by intro d w d' h; cases h; rfl) 3 _ _ _ [] Ex.days_faithful rfl _ _ _

example : process Ex.env 3 Ex.days Ex.daysValue .inbound false [] = .ok (.dict [
    (.str c!"days", .list [.date ⟨2020, 2, 29⟩, .date ⟨2021, 1, 1⟩]), (.str c!"label", .str c!"none")]) := rfl

/-! ### The restrictions are needed -/

/-- A union reads the text written by its second field with its first. -/
theorem C03_union_fails :
    let f : Field := .union {} [.leaf {} (.date none none), .leaf {} (.text none none none true)]
    process Ex.env 2 f (.str c!"2020-01-01") .outbound true [] = .ok (.str c!"2020-01-01") ∧
    process Ex.env 2 f (.str c!"2020-01-01") .inbound false [] = .ok (.str c!"2020-01-01") ∧
    process Ex.env 2 f (.str c!"2020-01-01") .inbound true [] = .ok (.date ⟨2020, 1, 1⟩) := ⟨rfl, rfl, rfl⟩

/-- A default is taken for a serialized value when serialized data is read: the two bytes of a Binary default are
decoded, or fail to. -/
theorem C03_default_fails :
    let f : Field := .structure {} [(c!"b", .leaf { default := .bytes [⟨65, by decide⟩] } (.binary none none))] true []
    process Ex.env 2 f (.dict []) .outbound true [] = .ok (.dict []) ∧
    process Ex.env 2 f (.dict []) .inbound false [] = .ok (.dict [(.str c!"b", .bytes [⟨65, by decide⟩])]) ∧
    process Ex.env 2 f (.dict []) .inbound true [] = .error (.py .binasciiError) := ⟨rfl, rfl, rfl⟩

/-- A Date field serializes only the date of a datetime. -/
theorem C03_datetime_in_date_fails (d : PDateTime) (hd : CalendarDate d.date) (hy : 1000 ≤ d.date.year) :
    ∃ s, process Ex.env 1 (.leaf {} (.date none none)) (.datetime d) .outbound true [] = .ok s ∧
      process Ex.env 1 (.leaf {} (.date none none)) (.datetime d) .inbound false [] = .ok (.datetime d) ∧
      process Ex.env 1 (.leaf {} (.date none none)) s .inbound true [] = .ok (.date d.date) := by
  refine ⟨.str (dateStr false d.date), rfl, rfl, ?_⟩
  rw [dateStr_iso hd (.inr hy), process_anc,
    C16_text_iff Ex.env 0 {} none none rfl _ _ _ (ancOr_ne_nil _ _)]
  exact ⟨d.date, dateText_iso _ hd, hd, rfl, .inl rfl, by simp, by simp⟩

/-- Times lose their microseconds. -/
theorem C03_microseconds_fail :
    process Ex.env 1 (.leaf {} (.time none none)) (.time ⟨1, 2, 3, 4⟩) .outbound true [] = .ok (.str c!"01:02:03") ∧
    process Ex.env 1 (.leaf {} (.time none none)) (.str c!"01:02:03") .inbound true [] = .ok (.time ⟨1, 2, 3, 0⟩) :=
  ⟨rfl, rfl⟩

/-- Map keys that only differ in white space become one. -/
theorem C03_keys_collapse :
    let f : Field := .map {} (some (.leaf {} (.text none none none true))) (.leaf {} .any) []
    process Ex.env 2 f (.dict [(.str c!"a", .int 1), (.str c!" a", .int 2)]) .outbound true [] =
      .ok (.dict [(.str c!"a", .int 2)]) := rfl

theorem isNull_ok_anc {f : Field} {v : Val} {b : Bool} {anc anc' : List Str} (h : isNull f v anc = .ok b) : isNull f v anc' = .ok b := by
  unfold isNull at h ⊢
  split at h
  · exact h
  · rename_i c hc
    revert h
    split
    · split
      · intro h; cases h
      · exact id
    · exact id

/-- A simple field that writes a value accepts it natively. -/
theorem leaf_accepts {env : Env} {c : Common} {k : Leaf} {n : Nat} {v s : Val} {anc : List Str} (anc' : List Str)
    (h : process env n (.leaf c k) v .outbound true anc = .ok s) : ∃ w, process env n (.leaf c k) v .inbound false anc' = .ok w := by
  cases n with
  | zero => cases h
  | succ n =>
    rcases processLeaf_ok.1 h with ⟨h1, _⟩ | ⟨h1, v1, v2, v3, h2, h3, h4, h5, _⟩
    · exact ⟨.none, processLeaf_ok.2 (.inl ⟨isNull_ok_anc h1, rfl⟩)⟩
    · refine ⟨v3, processLeaf_ok.2 (.inr ⟨isNull_ok_anc h1, v1, v2, v3, ?_, preprocess_anc' h3, h4, validateLeaf_anc h5, ?_⟩)⟩
      · simpa [decodeStep] using h2
      · simp [encodeStep]

end Scheme
