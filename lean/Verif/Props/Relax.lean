import Verif.Spec.Relax
import Verif.Props.Conformance
import Verif.Props.Sendable
import Verif.Props.SimpleFields

/-! Relaxing a schema keeps what was accepted. -/

namespace Scheme

theorem lower_violates {α : Type} {le : α → α → Prop} {p : α → Bool} (hp : ∀ m m', le m' m → p m = false → p m' = false)
    {mn mn' : Option α} (h : LowerMin le mn mn') (hv : violates p mn = false) : violates p mn' = false := by
  cases mn' with
  | none => rfl
  | some m' => obtain ⟨m, rfl, hle⟩ := h m' rfl; exact hp m m' hle hv

theorem higher_violates {α : Type} {le : α → α → Prop} {p : α → Bool} (hp : ∀ m m', le m m' → p m = false → p m' = false)
    {mx mx' : Option α} (h : HigherMax le mx mx') (hv : violates p mx = false) : violates p mx' = false := by
  cases mx' with
  | none => rfl
  | some m' => obtain ⟨m, rfl, hle⟩ := h m' rfl; exact hp m m' hle hv

theorem not_floatBelow_trans {a b c : PyFloat} (hb : b ≠ .nan) (h1 : ¬ FloatBelow a b) (h2 : ¬ FloatBelow b c) :
    ¬ FloatBelow a c := by
  intro h
  cases h with
  | @fin x y hxy =>
    cases b with
    | fin q =>
      have e1 : ¬ x < q := fun h => h1 (.fin h)
      have e2 : ¬ q < y := fun h => h2 (.fin h)
      grind
    | inf n => cases n with
      | true => exact h2 .low
      | false => exact h1 .high
    | nan => exact hb rfl
  | low => cases b with
    | fin q => exact h1 .low
    | inf n => cases n with
      | true => exact h2 .low
      | false => exact h1 .ends
    | nan => exact hb rfl
  | high => cases b with
    | fin q => exact h2 .high
    | inf n => cases n with
      | true => exact h2 .ends
      | false => exact h1 .high
    | nan => exact hb rfl
  | ends => cases b with
    | fin q => exact h1 .low
    | inf n => cases n with
      | true => exact h2 .ends
      | false => exact h1 .ends
    | nan => exact hb rfl

theorem decLe_below {a b : Dec} : DecLe a b ↔ ∃ x y, decVal a = some x ∧ decVal b = some y ∧ ¬ FloatBelow y x := by
  rw [← decLt_iff]
  unfold decLt
  cases decVal a <;> cases decVal b <;> simp [floatLt_false]

theorem decLe_trans {a b c : Dec} (h1 : DecLe a b) (h2 : DecLe b c) : DecLe a c := by
  rw [decLe_below] at *
  obtain ⟨x, y, hx, hy, h1⟩ := h1
  obtain ⟨y', z, hy', hz, h2⟩ := h2
  rw [hy] at hy'; cases hy'
  refine ⟨x, z, hx, hz, not_floatBelow_trans ?_ h2 h1⟩
  rintro rfl
  cases b <;> simp [decVal] at hy

theorem not_lexLt_trans_date {a b c : PDate} (h1 : ¬ DateBefore a b) (h2 : ¬ DateBefore b c) : ¬ DateBefore a c := by
  unfold DateBefore at *; omega

theorem not_timeBefore_trans {a b c : PTime} (h1 : ¬ TimeBefore a b) (h2 : ¬ TimeBefore b c) : ¬ TimeBefore a c := by
  unfold TimeBefore at *; omega

theorem not_momentBefore_trans {a b c : PDateTime} (h1 : ¬ MomentBefore a b) (h2 : ¬ MomentBefore b c) :
    ¬ MomentBefore a c := by
  obtain ⟨⟨y, m, d⟩, ⟨h, mi, s, u⟩, z⟩ := a
  obtain ⟨⟨y', m', d'⟩, ⟨h', mi', s', u'⟩, z'⟩ := b
  obtain ⟨⟨y'', m'', d''⟩, ⟨h'', mi'', s'', u''⟩, z''⟩ := c
  simp only [MomentBefore, DateBefore, TimeBefore, PDate.mk.injEq] at *
  omega

theorem key_date (a b : PDate) : lexLt a.key b.key = false ↔ ¬ DateBefore a b := by
  rw [← date_lexLt]; simp
theorem key_time (a b : PTime) : lexLt a.key b.key = false ↔ ¬ TimeBefore a b := by
  rw [← time_key_lt]; simp
theorem key_moment (a b : PDateTime) : lexLt a.key b.key = false ↔ ¬ MomentBefore a b := by
  unfold MomentBefore; rw [← datetime_key_lt]; simp

theorem looser_text {f f' : Field} {mn mx mn' mx' : Option Nat} {pat pat' : Str → Bool} {s : Str} {a a' : List Str} {w : Val}
    (hw : Wider (· ≤ ·) mn mn' mx mx') (hp : ∀ s, pat s = true → pat' s = true)
    (h : validateText f mn mx pat s a = .ok w) : validateText f' mn' mx' pat' s a' = .ok w := by
  unfold validateText at h ⊢
  dsimp only at h ⊢
  split at h
  · cases h
  rename_i h1
  split at h
  · cases h
  rename_i h2
  split at h
  · rename_i h3
    rw [if_neg, if_neg, if_pos (hp _ h3)]
    · exact h
    · exact Bool.not_eq_true _ ▸ higher_violates (fun m m' hle h => by simp at h ⊢; omega) hw.2 (Bool.not_eq_true _ ▸ h2)
    · exact Bool.not_eq_true _ ▸ lower_violates (fun m m' hle h => by simp at h ⊢; omega) hw.1 (Bool.not_eq_true _ ▸ h1)
  · cases h

theorem looser_unserialize {env : Env} {f f' : Field} {k k' : Leaf} (h : LooserLeaf k k') {v x : Val} {a a' : List Str}
    (hx : unserializeLeaf env f k v a = .ok x) : unserializeLeaf env f' k' v a' = .ok x := by
  cases h <;> try cases k
  all_goals
    unfold unserializeLeaf at hx ⊢
    dsimp only at hx ⊢
    try (repeat' split at hx)
    all_goals first | (cases hx; done) | exact hx

theorem looser_serialize {env : Env} {f f' : Field} {k k' : Leaf} (h : LooserLeaf k k') {v x : Val}
    (hx : serializeLeaf env f k v = .ok x) : serializeLeaf env f' k' v = .ok x := by
  cases h <;> try cases k
  all_goals
    unfold serializeLeaf at hx ⊢
    dsimp only at hx ⊢
    try (repeat' split at hx)
    all_goals first | (cases hx; done) | exact hx

theorem looser_preprocess {env : Env} {f f' : Field} {c c' : Common} {k k' : Leaf} (hc : c'.pre = c.pre) (h : LooserLeaf k k')
    {v x : Val} {a a' : List Str} (hx : preprocess env f c k v a = .ok x) : preprocess env f' c' k' v a' = .ok x := by
  unfold preprocess at hx ⊢
  rw [hc]
  split at hx
  · split at hx
    · exact hx
    · cases hx
  · cases h <;> try cases k
    all_goals
      dsimp only at hx ⊢
      try (repeat' split at hx)
      all_goals first | (cases hx; done) | exact hx | (simp_all; done)

theorem isNull_ok {f : Field} {c : Common} {v : Val} {a : List Str} {b : Bool} (hc : f.common? = some c) :
    isNull f v a = .ok b ↔ b = (nullView f v).isNone ∧ (b = true → c.nonnull = false) := by
  unfold isNull
  rw [hc]
  dsimp only
  cases (nullView f v).isNone <;> cases hn : c.nonnull <;> cases b <;> simp [hn]

theorem looser_nullView {c c' : Common} {k k' : Leaf} (h : LooserLeaf k k') (v : Val) :
    nullView (.leaf c' k') v = nullView (.leaf c k) v := by
  cases h <;> try cases k
  all_goals rfl

theorem looser_validate_same {env : Env} {f f' : Field} {k : Leaf} {v x : Val} {a a' : List Str}
    (hx : validateLeaf env f k v a = .ok x) : validateLeaf env f' k v a' = .ok x := by
  cases k
  all_goals
    unfold validateLeaf at hx ⊢
    dsimp only at hx ⊢
    try (repeat' split at hx)
    all_goals first | (cases hx; done) | exact hx | (simp_all; done) |
      (try simp only [*, if_true, if_false, Bool.false_eq_true]
       exact looser_text ⟨fun m h => ⟨m, h, Nat.le_refl _⟩, fun m h => ⟨m, h, Nat.le_refl _⟩⟩ (fun _ h => h) hx)

theorem looser_validate {env : Env} {f f' : Field} {k k' : Leaf} (h : LooserLeaf k k') {v x : Val} {a a' : List Str}
    (hx : validateLeaf env f k v a = .ok x) : validateLeaf env f' k' v a' = .ok x := by
  cases h with
  | same => exact looser_validate_same hx
  | binary hw =>
    rw [validate_binary] at hx ⊢
    obtain ⟨h1, b, h2, h3, h4⟩ := hx
    exact ⟨h1, b, h2, fun m' h => by obtain ⟨m, e, hle⟩ := hw.1 m' h; exact Nat.le_trans hle (h3 m e),
      fun m' h => by obtain ⟨m, e, hle⟩ := hw.2 m' h; exact Nat.le_trans (h4 m e) hle⟩
  | integer hw =>
    rw [validate_integer] at hx ⊢
    obtain ⟨b, h1, h2, h3, h4⟩ := hx
    exact ⟨b, h1, h2, fun m' h => by obtain ⟨m, e, hle⟩ := hw.1 m' h; exact Int.le_trans hle (h3 m e),
      fun m' h => by obtain ⟨m, e, hle⟩ := hw.2 m' h; exact Int.le_trans (h4 m e) hle⟩
  | decimal hw =>
    rw [validate_decimal] at hx ⊢
    obtain ⟨h1, b, h2, h3, h4⟩ := hx
    exact ⟨h1, b, h2, fun m' h => by obtain ⟨m, e, hle⟩ := hw.1 m' h; exact decLe_trans hle (h3 m e),
      fun m' h => by obtain ⟨m, e, hle⟩ := hw.2 m' h; exact decLe_trans (h4 m e) hle⟩
  | float hw =>
    rw [validate_float] at hx ⊢
    obtain ⟨b, h1, h2, h3, h4⟩ := hx
    exact ⟨b, h1, h2, fun m' h => by obtain ⟨m, e, _, hm, hle⟩ := hw.1 m' h; exact not_floatBelow_trans hm (h3 m e) hle,
      fun m' h => by obtain ⟨m, e, hm, _, hle⟩ := hw.2 m' h; exact not_floatBelow_trans hm hle (h4 m e)⟩
  | date hw =>
    rw [validate_date] at hx ⊢
    obtain ⟨h1, ⟨b, h2, h3, h4⟩ | ⟨d, h2, h3, h4⟩⟩ := hx
    · exact ⟨h1, .inl ⟨b, h2, fun m' h => by obtain ⟨m, e, hle⟩ := hw.1 m' h; exact not_lexLt_trans_date (h3 m e) hle,
        fun m' h => by obtain ⟨m, e, hle⟩ := hw.2 m' h; exact not_lexLt_trans_date hle (h4 m e)⟩⟩
    · refine ⟨h1, .inr ⟨d, h2, ?_, ?_⟩⟩
      · rename_i mn mx mn' mx'
        cases mn' with
        | none => rfl
        | some m' => obtain ⟨m, e, _⟩ := hw.1 m' rfl; rw [h3] at e; cases e
      · rename_i mn mx mn' mx'
        cases mx' with
        | none => rfl
        | some m' => obtain ⟨m, e, _⟩ := hw.2 m' rfl; rw [h4] at e; cases e
  | datetime hw =>
    rw [validate_datetime] at hx ⊢
    obtain ⟨d, d', h1, h2, h3, h4, h5⟩ := hx
    simp only [key_moment] at h4 h5 ⊢
    exact ⟨d, d', h1, h2, h3,
      fun m' h => by obtain ⟨m, e, hle⟩ := hw.1 m' h; exact not_momentBefore_trans (h4 m e) hle,
      fun m' h => by obtain ⟨m, e, hle⟩ := hw.2 m' h; exact not_momentBefore_trans hle (h5 m e)⟩
  | time hw =>
    unfold validateLeaf at hx ⊢
    dsimp only at hx ⊢
    split at hx
    · split at hx
      · cases hx
      rename_i h1
      split at hx
      · cases hx
      rename_i h2
      rw [if_neg, if_neg]
      · exact hx
      · exact Bool.not_eq_true _ ▸ higher_violates (fun m m' hle h => by rw [key_time] at h ⊢; exact not_timeBefore_trans hle h) hw.2 (Bool.not_eq_true _ ▸ h2)
      · exact Bool.not_eq_true _ ▸ lower_violates (fun m m' hle h => by rw [key_time] at h ⊢; exact not_timeBefore_trans h hle) hw.1 (Bool.not_eq_true _ ▸ h1)
    · cases hx
  | text hp hw =>
    unfold validateLeaf at hx ⊢
    dsimp only at hx ⊢
    split at hx
    · refine looser_text hw (fun s hs => ?_) hx
      rcases hp with rfl | rfl
      · rfl
      · exact hs
    · cases hx
  | email hw =>
    unfold validateLeaf at hx ⊢
    dsimp only at hx ⊢
    split at hx
    · exact looser_text hw (fun s hs => hs) hx
    · cases hx
  | enumeration hv =>
    unfold validateLeaf at hx ⊢
    dsimp only at hx ⊢
    split at hx
    · rename_i h
      rw [if_pos]
      · exact hx
      · simp only [pyIn, List.any_eq_true] at h ⊢
        obtain ⟨y, hy, he⟩ := h
        exact ⟨y, hv y hy, he⟩
    · cases hx
  | token =>
    rw [validate_token] at hx ⊢
    obtain ⟨h1, s, h2, t, k, h3, h4, h5⟩ := hx
    exact ⟨h1, s, h2, t, k, h3, h4, fun m h => nomatch h⟩
  | definition hv =>
    rw [validate_definition] at hx ⊢
    obtain ⟨h, h1, h2, h3⟩ := hx
    refine ⟨h, h1, h2, ?_⟩
    rcases hv with rfl | ⟨h4, h5⟩
    · exact .inl rfl
    · rcases h3 with h3 | h3
      · exact absurd h3 h4
      · exact .inr (h5 _ h3)

theorem looser_leaf {env : Env} {c c' : Common} {k k' : Leaf} (hc : LooserCommon c c') (hk : LooserLeaf k k') {v w : Val}
    {ph : Phase} {ser : Bool} {a a' : List Str} (h : processLeaf env c k v ph ser a = .ok w) :
    processLeaf env c' k' v ph ser a' = .ok w := by
  rw [processLeaf_ok] at h ⊢
  simp only [isNull_ok (f := .leaf c k) rfl] at h
  simp only [isNull_ok (f := .leaf c' k') rfl, looser_nullView hk (c := c)]
  rcases h with ⟨⟨h1, h2⟩, h3⟩ | ⟨⟨h1, _⟩, v1, v2, v3, h2, h3, h4, h5, h6⟩
  · refine .inl ⟨⟨h1, fun _ => ?_⟩, h3⟩
    cases hn : c'.nonnull
    · rfl
    · rw [hc.nonnull hn] at h2; simp at h2
  · refine .inr ⟨⟨h1, fun h => nomatch h⟩, v1, v2, v3, ?_, looser_preprocess hc.pre hk h3, ?_, looser_validate hk h5, ?_⟩
    · unfold decodeStep at h2 ⊢
      split at h2
      · rename_i h; rw [if_pos h]; exact looser_unserialize hk h2
      · rename_i h; rw [if_neg h]; exact h2
    · rcases hc.constant with e | e
      · exact .inl e
      · unfold ConstOk; rw [e]; exact h4
    · unfold encodeStep at h6 ⊢
      split at h6
      · rename_i h; rw [if_pos h]; rw [serOut_ok] at h6 ⊢; exact looser_serialize hk h6
      · rename_i h; rw [if_neg h]; exact h6


theorem Looser.common {env : Env} {R : Field → Field → Prop} {f g : Field} (h : Looser env R f g) :
    ∃ c c', f.common? = some c ∧ g.common? = some c' ∧ LooserCommon c c' := by
  cases h <;> exact ⟨_, _, rfl, rfl, by assumption⟩

theorem LooserCommon.open {c c' : Common} (h : LooserCommon c c') (hn : c.nonnull = false) : c'.nonnull = false := by
  cases hn' : c'.nonnull
  · rfl
  · rw [h.nonnull hn'] at hn; cases hn

/-- The slots of the second structure: those of the first, and empty ones. -/
theorem slots_spread (p : Str → Bool) : ∀ (order' : List Str) (slots : List (Str × Option Val)),
    slots.map (·.1) = order'.filter p → ∃ slots' : List (Str × Option Val), slots'.map (·.1) = order' ∧
      slotDict slots' = slotDict slots ∧ ∀ x ∈ slots', x ∈ slots ∨ (x.2 = none ∧ p x.1 = false) := by
  intro order'
  induction order' with
  | nil =>
    intro slots h
    cases slots with
    | nil => exact ⟨[], rfl, rfl, fun x hx => absurd hx List.not_mem_nil⟩
    | cons a r => cases h
  | cons a r ih =>
    intro slots h
    cases hp : p a with
    | false =>
      rw [List.filter_cons, hp] at h
      obtain ⟨s, h1, h2, h3⟩ := ih slots h
      refine ⟨(a, none) :: s, by simp [h1], by simpa [slotDict] using h2, fun x hx => ?_⟩
      rcases List.mem_cons.1 hx with rfl | hx
      · exact .inr ⟨rfl, hp⟩
      · exact h3 x hx
    | true =>
      rw [List.filter_cons, hp] at h
      cases slots with
      | nil => cases h
      | cons b t =>
        injection h with e h
        obtain ⟨s, h1, h2, h3⟩ := ih t h
        refine ⟨b :: s, by simp [h1, e], ?_, fun x hx => ?_⟩
        · unfold slotDict at h2 ⊢
          rw [List.filterMap_cons, List.filterMap_cons, h2]
        · rcases List.mem_cons.1 hx with rfl | hx
          · exact .inl List.mem_cons_self
          · rcases h3 x hx with h | h
            · exact .inl (List.mem_cons_of_mem _ h)
            · exact .inr h

theorem given_none_of {d : List (Val × Val)} {name : Str} (h : ∀ e ∈ d, e.1 ≠ .str name) : given d name = none := by
  unfold given
  rw [Option.map_eq_none_iff, List.find?_eq_none]
  intro e he
  have := h e he
  split
  · rename_i s hs
    simp only [beq_iff_eq]
    rintro rfl
    exact this hs
  · simp

/-- Members at work. -/
theorem looser_members {env : Env} {R : Field → Field → Prop} {n : Nat} {ph : Phase} {ser : Bool}
    (hR : Relaxes env R)
    (ih : ∀ f g v w a a', R f g → process env n f v ph ser a = .ok w → process env n g v ph ser a' = .ok w)
    {strict : Bool} {order order' : List Str} {defn defn' : List (Str × Field)}
    (hm : LooserMembers env R strict order order' defn defn') {d : List (Val × Val)} {a a' : List Str}
    (hs : strict = true → ∀ e ∈ d, ∃ name ∈ order, e.1 = .str name) {slots : List (Str × Option Val)}
    (h1 : slots.map (·.1) = order) (h2 : ∀ x ∈ slots, SlotOk env n defn d ph ser false a x.1 x.2) :
    ∃ slots' : List (Str × Option Val), slots'.map (·.1) = order' ∧
      (∀ x ∈ slots', SlotOk env n defn' d ph ser false a' x.1 x.2) ∧ slotDict slots = slotDict slots' := by
  obtain ⟨s, e1, e2, e3⟩ := slots_spread (fun n => order.contains n) order' slots (h1.trans hm.same.symm)
  refine ⟨s, e1, fun x hx => ?_, e2.symm⟩
  rcases e3 x hx with hx' | ⟨hx1, hx2⟩
  · obtain ⟨g, c, hd, hmiss, hval⟩ := h2 x hx'
    have hin : x.1 ∈ order := by rw [← h1]; exact List.mem_map.2 ⟨x, hx', rfl⟩
    obtain ⟨g', c', hd', hr⟩ := hm.kept x.1 hin g c hd
    obtain ⟨cc, cc', k1, k2, hcc⟩ := (hR g g' hr).common
    obtain ⟨_, _, _, kc⟩ := hd
    rw [kc] at k1; cases k1
    have hd'' := hd'
    obtain ⟨_, _, _, kc'⟩ := hd''
    rw [kc'] at k2; cases k2
    have hmi : memberInput c' (given d x.1) ph false = memberInput c (given d x.1) ph false := by
      unfold memberInput; rw [hcc.ignoreNull, hcc.default]
    refine ⟨g', c', hd', ?_, ?_⟩
    · rintro ⟨m1, m2, m3, m4⟩
      rw [hmi] at m4
      exact hmiss ⟨m1, m2, hcc.required m3, m4⟩
    · rw [hmi]
      rcases hval with h | ⟨v, w, h, hw, hp⟩
      · exact .inl h
      · exact .inr ⟨v, w, h, hw, ih _ _ _ _ _ _ hr hp⟩
  · have hno : x.1 ∉ order := by simpa using hx2
    have hin : x.1 ∈ order' := by rw [← e1]; exact List.mem_map.2 ⟨x, hx, rfl⟩
    obtain ⟨hst, g, c, hd, hq, hdef⟩ := hm.added x.1 hin hno
    have hg : given d x.1 = none := given_none_of fun e he heq => by
      obtain ⟨name, hn, h⟩ := hs hst e he
      rw [heq] at h; cases h
      exact hno hn
    refine ⟨g, c, hd, ?_, .inl ⟨?_, hx1⟩⟩
    · rintro ⟨_, _, m3, _⟩
      rw [hq] at m3; cases m3
    · rw [hg]; unfold memberInput; rw [hdef]; cases ph <;> rfl

theorem LooserMembers.sub {env : Env} {R : Field → Field → Prop} {strict : Bool} {order order' : List Str}
    {defn defn' : List (Str × Field)} (hm : LooserMembers env R strict order order' defn defn') {x : Str} (hx : x ∈ order) :
    x ∈ order' := by
  rw [← hm.same] at hx
  exact (List.mem_filter.1 hx).1

theorem unionLoop_prefix {env : Env} {rec : Proc} {v w : Val} {ph : Phase} {ser : Bool} {a : List Str} {rest rest' : List Field}
    (hrest : unionLoop env rec v ph ser a rest = some (.ok w) → unionLoop env rec v ph ser a rest' = some (.ok w)) :
    ∀ fs, unionLoop env rec v ph ser a (fs ++ rest) = some (.ok w) →
      unionLoop env rec v ph ser a (fs ++ rest') = some (.ok w)
  | [] => hrest
  | f :: fs => by
    intro h
    rw [List.cons_append] at h ⊢
    unfold unionLoop at h ⊢
    split at h
    · split at h
      · rename_i e he hi
        simp only [hi, if_true]
        exact unionLoop_prefix hrest fs h
      · cases h
    · exact h

theorem union_accepts {env : Env} {rec : Proc} {c : Common} {fs : List Field} {v w : Val} {ph : Phase} {ser : Bool}
    {a : List Str} : processUnion env rec c fs v ph ser a = .ok w ↔
      (v = .none ∧ w = .none ∧ c.nonnull = false) ∨
      (v ≠ .none ∧ unionLoop env rec v ph ser (ancOr (.union c fs) a) fs = some (.ok w)) := by
  unfold processUnion
  dsimp only
  rw [except_bind_eq_ok]
  simp only [isNull_ok (f := .union c fs) rfl]
  have hnv : nullView (.union c fs) v = v := rfl
  rw [hnv]
  constructor
  · rintro ⟨b, ⟨h1, h2⟩, h⟩
    cases b with
    | true =>
      cases h
      cases v <;> simp [Val.isNone] at h1
      exact .inl ⟨rfl, rfl, h2 rfl⟩
    | false =>
      refine .inr ⟨?_, ?_⟩
      · rintro rfl; cases h1
      · simp only [Bool.false_eq_true, if_false] at h
        revert h
        cases unionLoop env rec v ph ser (ancOr (.union c fs) a) fs with
        | none => intro h; cases h
        | some r => intro h; exact congrArg some h
  · rintro (⟨rfl, rfl, h⟩ | ⟨hv, h⟩)
    · exact ⟨true, ⟨rfl, fun _ => h⟩, rfl⟩
    · refine ⟨false, ⟨?_, fun h => nomatch h⟩, ?_⟩
      · cases v <;> first | rfl | exact absurd rfl hv
      · simp only [Bool.false_eq_true, if_false, h]

/-- C73. If every field of a schema is replaced by one that demands no more — bounds widened, a pattern, a constant or
uniqueness dropped, values and variants added, null allowed, members made optional, and, where unknown keys were
rejected, optional members added — then whatever was accepted still is, in both directions, native or serialized, with
the same result.  Schemas may be recursive. -/
theorem C73_relaxed (env : Env) (R : Field → Field → Prop) (hR : Relaxes env R) (n : Nat) (f g : Field) (v w : Val)
    (ph : Phase) (ser : Bool) (anc anc' : List Str) (hfg : R f g) (h : process env n f v ph ser anc = .ok w) :
    process env n g v ph ser anc' = .ok w := by
  induction n generalizing f g v w anc anc' with
  | zero => cases h
  | succ n ih =>
    have ih' : ∀ f g v w a a', R f g → process env n f v ph ser a = .ok w → process env n g v ph ser a' = .ok w :=
      fun f g v w a a' hr h => ih f g v w a a' hr h
    cases hR f g hfg with
    | leaf hc hk => exact looser_leaf hc hk h
    | sequence hc hpre hi hw hu =>
      rw [seq_ok hpre] at h
      rw [seq_ok (hc.pre.trans hpre)]
      rcases h with ⟨h1, h2, h3⟩ | ⟨l, rs, h1, h2, h3, h4, h5, h6, h7⟩
      · exact .inl ⟨h1, h2, hc.open h3⟩
      · refine .inr ⟨l, rs, h1, h2, h3, fun m' h => ?_, fun m' h => ?_, fun i x r hx hr => ?_, fun h => h7 (hu h)⟩
        · obtain ⟨m, e, hle⟩ := hw.1 m' h; exact Nat.le_trans hle (h4 m e)
        · obtain ⟨m, e, hle⟩ := hw.2 m' h; exact Nat.le_trans (h5 m e) hle
        · obtain ⟨g, hg, hp⟩ := h6 i x r hx hr
          obtain ⟨g', hg', hr⟩ := hi g hg
          exact ⟨g', hg', ih' _ _ _ _ _ _ hr hp⟩
    | tuple hc hpre hl hi =>
      rw [tup_ok hpre] at h
      rw [tup_ok (hc.pre.trans hpre)]
      rcases h with ⟨h1, h2, h3⟩ | ⟨l, rs, h1, h2, h3, h4, h5⟩
      · exact .inl ⟨h1, h2, hc.open h3⟩
      · refine .inr ⟨l, rs, h1, h2, h3.trans hl.symm, h4, fun i f' x hf' hx => ?_⟩
        rename_i fs fs'
        have hlt : i < fs.length := by rw [← hl]; exact (List.getElem?_eq_some_iff.1 hf').1
        obtain ⟨g, r, hg, hr, hp⟩ := h5 i _ x (List.getElem?_eq_getElem hlt) hx
        obtain ⟨g', hg', hr'⟩ := hi i _ _ (List.getElem?_eq_getElem hlt) hf' g hg
        exact ⟨g', r, hg', hr, ih' _ _ _ _ _ _ hr' hp⟩
    | map hc hpre hv hq =>
      rw [map_ok hpre] at h
      rw [map_ok (hc.pre.trans hpre)]
      rcases h with ⟨h1, h2, h3⟩ | ⟨d, es, h1, h2, h3, out, h4, h5, h6⟩
      · exact .inl ⟨h1, h2, hc.open h3⟩
      · refine .inr ⟨d, es, h1, h2, fun i k x hi => ?_, out, h4, h5, fun k hk => h6 k (hq k hk)⟩
        obtain ⟨k', r, k1, k2, k3, g, st, k4, k5, k6⟩ := h3 i k x hi
        obtain ⟨g', hg', hr⟩ := hv g k4
        refine ⟨k', r, k1, ?_, k3, g', st, hg', k5, ih' _ _ _ _ _ _ hr k6⟩
        cases k2 with
        | text t => exact .text t
    | keyedMap hc hpre hkf hv hq =>
      rw [map_ok hpre] at h
      rw [map_ok (hc.pre.trans hpre)]
      rcases h with ⟨h1, h2, h3⟩ | ⟨d, es, h1, h2, h3, out, h4, h5, h6⟩
      · exact .inl ⟨h1, h2, hc.open h3⟩
      · refine .inr ⟨d, es, h1, h2, fun i k x hi => ?_, out, h4, h5, fun k hk => h6 k (hq k hk)⟩
        obtain ⟨k', r, k1, k2, k3, g, st, k4, k5, k6⟩ := h3 i k x hi
        obtain ⟨g', hg', hr⟩ := hv g k4
        refine ⟨k', r, k1, ?_, k3, g', st, hg', k5, ih' _ _ _ _ _ _ hr k6⟩
        cases k2 with
        | field h1 h2 => exact .field h1 (ih' _ _ _ _ _ _ hkf h2)
    | union hc hf =>
      rename_i c c' fs f f' more
      rw [C71_accepts env _ _ _ _ _ _ _ [c!"u"]] at h ⊢
      replace h : processUnion env (process env n) c (fs ++ [f]) v ph ser [c!"u"] = .ok w := h
      show processUnion env (process env n) c' (fs ++ f' :: more) v ph ser [c!"u"] = .ok w
      rw [union_accepts] at h ⊢
      rcases h with ⟨h1, h2, h3⟩ | ⟨h1, h2⟩
      · exact .inl ⟨h1, h2, hc.open h3⟩
      · refine .inr ⟨h1, unionLoop_prefix (fun h => ?_) fs h2⟩
        unfold unionLoop callChild at h ⊢
        cases hg : resolve env f with
        | none => rw [hg] at h; cases h
        | some g =>
          obtain ⟨g', hg', hr⟩ := hf g hg
          rw [hg] at h
          dsimp only at h
          rw [hg']
          dsimp only
          have hp : process env n g v ph ser [c!"u"] = .ok w := by
            revert h
            change (match process env n g v ph ser [c!"u"] with | .error (.structural e) => _ | r => _) = _ → _
            cases process env n g v ph ser [c!"u"] with
            | ok x => intro h; cases h; rfl
            | error e =>
              cases e <;> intro h <;> first | (cases h; done) | (dsimp only at h; split at h <;> cases h)
          have hp' : process env n g' v ph ser (ancOr (.union c' (fs ++ f' :: more)) [c!"u"]) = .ok w := ih' _ _ _ _ _ _ hr hp
          rw [hp']
    | unionMore hc =>
      rename_i c c' fs more
      rw [C71_accepts env _ _ _ _ _ _ _ [c!"u"]] at h ⊢
      replace h : processUnion env (process env n) c fs v ph ser [c!"u"] = .ok w := h
      show processUnion env (process env n) c' (fs ++ more) v ph ser [c!"u"] = .ok w
      rw [union_accepts] at h ⊢
      rcases h with ⟨h1, h2, h3⟩ | ⟨h1, h2⟩
      · exact .inl ⟨h1, h2, hc.open h3⟩
      · rw [← List.append_nil fs] at h2
        exact .inr ⟨h1, unionLoop_prefix (fun h => by cases h) fs h2⟩
    | «structure» hc hpre hs hm =>
      rw [struct_ok hpre hm.nodup] at h
      rw [struct_ok (hc.pre.trans hpre) hm.nodup']
      rcases h with ⟨h1, h2, h3⟩ | ⟨d, h1, h2, slots, h3, h4, h5⟩
      · exact .inl ⟨h1, h2, hc.open h3⟩
      · obtain ⟨slots', k1, k2, k3⟩ := looser_members hR ih' hm h2 h3 h4
        refine .inr ⟨d, h1, fun h e he => ?_, slots', k1, k2, k3 ▸ h5⟩
        obtain ⟨name, hn, e⟩ := h2 (hs h) e he
        exact ⟨name, hm.sub hn, e⟩
    | poly hc hpre hdisc hname hs hnd hnd' hvs =>
      rw [poly_ok hpre hnd] at h
      rw [poly_ok (hc.pre.trans hpre) hnd']
      rcases h with ⟨h1, h2, h3⟩ | ⟨d, raw, id, defn, h1, h2, h3, h4, h5, h6, h7, h8, slots, k1, k2, k3⟩
      · exact .inl ⟨h1, h2, hc.open h3⟩
      · obtain ⟨defn', hv', hm⟩ := hvs id defn h6
        obtain ⟨slots', j1, j2, j3⟩ := looser_members hR ih' hm h8 k1 k2
        refine .inr ⟨d, raw, id, defn', h1, hname ▸ h2, h3, ih' _ _ _ _ _ _ hdisc h4, h5, hv', ?_, fun h e he => ?_,
          slots', j1, j2, j3 ▸ k3⟩
        · rintro rfl
          obtain ⟨a, l, rfl⟩ := List.exists_cons_of_ne_nil h7
          exact absurd (hm.sub (x := a.1) (by simp)) (by simp)
        · obtain ⟨name, hn, e⟩ := h8 (hs h) e he
          exact ⟨name, hm.sub hn, e⟩


/-! A recursive schema in two versions: the second allows more values, makes one member optional, allows the null tree
and has one more member. -/

def Ex.v1 : Field := .structure { nonnull := true }
  [(c!"value", .leaf { required := true } (.integer (some 1) (some 9))), (c!"kids", .sequence {} (.undef 0) none (some 3) false)]
  true []
def Ex.v2 : Field := .structure {}
  [(c!"note", .leaf {} (.text none none none true)), (c!"value", .leaf {} (.integer (some 0) none)),
   (c!"kids", .sequence {} (.undef 1) none (some 4) false)] false []
def Ex.versions : Env := { Ex.env with defs := fun s => if s = 0 then some Ex.v1 else if s = 1 then some Ex.v2 else none }

inductive Ex.Newer : Field → Field → Prop
  | tree : Ex.Newer Ex.v1 Ex.v2
  | value : Ex.Newer (.leaf { required := true } (.integer (some 1) (some 9))) (.leaf {} (.integer (some 0) none))
  | kids : Ex.Newer (.sequence {} (.undef 0) none (some 3) false) (.sequence {} (.undef 1) none (some 4) false)

theorem Ex.newer_relaxes : Relaxes Ex.versions Ex.Newer := by
  intro f g h
  cases h with
  | value =>
    exact .leaf ⟨rfl, .inl rfl, fun h => (by cases h), rfl, fun h => (by cases h), rfl⟩
      (.integer ⟨fun m h => ⟨1, rfl, by cases h; decide⟩, fun m h => (by cases h)⟩)
  | kids =>
    refine .sequence ⟨rfl, .inl rfl, fun h => (by cases h), rfl, fun h => (by cases h), rfl⟩ rfl ?_
      ⟨fun m h => (by cases h), fun m h => ⟨3, rfl, by cases h; decide⟩⟩ (fun h => (by cases h))
    intro g hg
    cases hg
    exact ⟨_, rfl, .tree⟩
  | tree =>
    refine .structure ⟨rfl, .inl rfl, fun h => (by cases h), rfl, fun h => (by cases h), rfl⟩ rfl (fun h => (by cases h)) ?_
    refine ⟨by decide, by decide, by decide, ?_, ?_⟩
    · intro name hn g c hd
      have hn' : name = c!"value" ∨ name = c!"kids" := by simpa [visited] using hn
      obtain ⟨f, h1, h2, h3⟩ := hd
      rcases hn' with rfl | rfl
      · cases h1; cases h2; exact ⟨_, _, ⟨_, rfl, rfl, rfl⟩, .value⟩
      · cases h1; cases h2; exact ⟨_, _, ⟨_, rfl, rfl, rfl⟩, .kids⟩
    · intro name hn ho
      have hn' : name = c!"note" ∨ name = c!"value" ∨ name = c!"kids" := by simpa [visited] using hn
      rcases hn' with rfl | rfl | rfl
      · exact ⟨rfl, _, _, ⟨_, rfl, rfl, rfl⟩, rfl, rfl⟩
      · exact absurd (by simp [visited]) ho
      · exact absurd (by simp [visited]) ho

/-- All that the first version accepts, however deep, the second accepts. -/
theorem Ex.newer (n : Nat) (v w : Val) (ph : Phase) (ser : Bool) (h : process Ex.versions n Ex.v1 v ph ser [] = .ok w) :
    process Ex.versions n Ex.v2 v ph ser [] = .ok w :=
  C73_relaxed _ _ Ex.newer_relaxes n _ _ v w ph ser _ _ .tree h

def Ex.oldTree : Val := .dict [(.str c!"value", .str c!"3"), (.str c!"kids", .list [.dict [(.str c!"value", .str c!"1")]])]

example : ∃ w, process Ex.versions 6 Ex.v1 Ex.oldTree .inbound true [] = .ok w ∧ w ≠ .none ∧
    process Ex.versions 6 Ex.v2 Ex.oldTree .inbound true [] = .ok w := by
  refine ⟨.dict [(.str c!"value", .int 3), (.str c!"kids", .list [.dict [(.str c!"value", .int 1)]])], ?_, by simp, ?_⟩
  · rfl
  · exact Ex.newer _ _ _ _ _ rfl

/-- Deviation: a structure that ignores unknown keys may not get a member: what was ignored is now looked at. -/
theorem C73_added_member_fails (n : Nat) (ph : Phase) (ser : Bool) :
    (process Ex.env (n + 2) (.structure {} [(c!"a", .leaf {} .boolean)] false []) (.dict [(.str c!"b", .int 1)]) ph ser [] =
      .ok (.dict [])) ∧
    ∀ w, process Ex.env (n + 2) (.structure {} [(c!"a", .leaf {} .boolean), (c!"b", .leaf {} .boolean)] false [])
      (.dict [(.str c!"b", .int 1)]) ph ser [] ≠ .ok w := by
  refine ⟨?_, fun w => ?_⟩
  · cases ph <;> cases ser <;> rfl
  · cases ph <;> cases ser <;> intro h <;> cases h

/-- Deviation: relaxing a field of a union that is not the last one changes what is read. -/
theorem C73_union_fails (n : Nat) :
    process Ex.env (n + 2) (.union {} [.leaf {} (.enumeration [.str c!"a"] []), .leaf {} (.integer none none)])
      (.str c!"1") .inbound true [] = .ok (.int 1) ∧
    process Ex.env (n + 2) (.union {} [.leaf {} (.enumeration [.str c!"a", .str c!"1"] []), .leaf {} (.integer none none)])
      (.str c!"1") .inbound true [] = .ok (.str c!"1") := by
  exact ⟨rfl, rfl⟩

/-- Deviation: a default, where there was none, is filled in. -/
theorem C73_default_fails (n : Nat) (ser : Bool) :
    process Ex.env (n + 2) (.structure {} [(c!"a", .leaf {} .boolean)] false []) (.dict []) .inbound ser [] =
      .ok (.dict []) ∧
    process Ex.env (n + 2) (.structure {} [(c!"a", .leaf { default := .bool true } .boolean)] false []) (.dict []) .inbound ser [] =
      .ok (.dict [(.str c!"a", .bool true)]) := by
  cases ser <;> exact ⟨rfl, rfl⟩

/-- Deviation: a text that is no longer stripped may be too long. -/
theorem C73_strip_fails (n : Nat) (ph : Phase) (ser : Bool) :
    process Ex.env (n + 1) (.leaf {} (.text none none (some 1) true)) (.str c!"a ") ph ser [] = .ok (.str c!"a") ∧
    ∀ w, process Ex.env (n + 1) (.leaf {} (.text none none (some 1) false)) (.str c!"a ") ph ser [] ≠ .ok w := by
  refine ⟨?_, fun w => ?_⟩
  · cases ph <;> cases ser <;> rfl
  · cases ph <;> cases ser <;> intro h <;> cases h

end Scheme
