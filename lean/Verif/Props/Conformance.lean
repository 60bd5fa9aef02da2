import Verif.Lemmas.DictSet
import Verif.Lemmas.StructBody
import Verif.Props.Text
import Verif.Props.Email
import Verif.Props.DateTime
import Verif.Props.Decimal
import Verif.Props.Binary
import Verif.Props.Integer
import Verif.Props.Enumeration

/-! C01: accepted values conform to the schema. -/

namespace Scheme

theorem TextForm.ends {u : Chars} {b : Bool} {s t : Str} (h : TextForm u b s t) (hb : b = true) :
    (∀ c, t.head? = some c → isSpace u c = false) ∧ ∀ c, t.getLast? = some c → isSpace u c = false := by
  subst hb
  obtain ⟨a, b, _, _, _, h1, h2⟩ := h
  exact ⟨h1, h2⟩

theorem time_key_lt (a b : PTime) : lexLt a.key b.key = true ↔ TimeBefore a b := by
  simp [PTime.key, lexLt, TimeBefore]

theorem datetime_key_lt (a b : PDateTime) :
    lexLt a.key b.key = true ↔ DateBefore a.date b.date ∨ a.date = b.date ∧ TimeBefore a.time b.time := by
  obtain ⟨⟨y, m, d⟩, ⟨h, mi, s, u⟩, z⟩ := a
  obtain ⟨⟨y', m', d'⟩, ⟨h', mi', s', u'⟩, z'⟩ := b
  simp only [PDateTime.key, PDate.key, PTime.key, List.cons_append, List.nil_append, lexLt, Bool.or_eq_true,
    Bool.and_eq_true, decide_eq_true_eq, beq_iff_eq, Bool.false_eq_true, and_false, or_false, PDate.mk.injEq,
    DateBefore, TimeBefore]
  omega

theorem float_lt_iff (a b : PyFloat) : floatLt a b = true ↔ FloatBefore a b := by
  constructor
  · intro h
    cases a <;> cases b <;> simp [floatLt] at h
    · exact .fin h
    · subst h; exact .high
    · subst h; exact .low
    · obtain ⟨rfl, rfl⟩ := h; exact .both
  · intro h
    cases h <;> simp_all [floatLt]

/-- A validated value is a value of the leaf type. -/
theorem validateLeaf_value {env : Env} (hz : ZoneLaw env) {f : Field} {k : Leaf} {v w : Val} {anc : List Str}
    (h : validateLeaf env f k v anc = .ok w) : LeafValue env k w := by
  cases k with
  | any => trivial
  | binary mn mx => obtain ⟨rfl, h⟩ := validate_binary.1 h; exact h
  | boolean =>
    cases v <;> simp [validateLeaf] at h
    subst h; exact ⟨_, rfl⟩
  | date mn mx =>
    obtain ⟨rfl, h⟩ := validate_date.1 h
    rcases h with ⟨d, rfl, h1, h2⟩ | h
    · exact .inl ⟨d, rfl, h1, h2⟩
    · exact .inr h
  | datetime mn mx utc =>
    obtain ⟨d, d', _, hn, rfl, h1, h2⟩ := validate_datetime.1 h
    refine ⟨d', rfl, ?_, fun m hm => ?_, fun m hm => ?_⟩
    · rcases hn with ⟨_, rfl⟩ | ⟨h, rfl⟩ | ⟨z, _, _, h⟩
      · rfl
      · exact h
      · exact hz _ _ _ h
    · intro hx; rw [← datetime_key_lt, h1 m hm] at hx; cases hx
    · intro hx; rw [← datetime_key_lt, h2 m hm] at hx; cases hx
  | decimal mn mx => obtain ⟨rfl, d, rfl, h1, h2⟩ := validate_decimal.1 h; exact ⟨d, rfl, h1, h2⟩
  | definition valid =>
    cases v <;> simp only [validateLeaf, reduceCtorEq] at h
    rename_i i
    split at h
    · simp at h
    · rename_i hc
      cases h
      refine ⟨i, rfl, fun hne => ?_⟩
      simp only [Bool.and_eq_true, Bool.not_eq_eq_eq_not, Bool.not_true, List.isEmpty_eq_false_iff,
        not_and, Bool.not_eq_false] at hc
      simpa using hc hne
  | email mn mx mult ext =>
    obtain ⟨rfl, s, rfl, h1, h2, h3⟩ := validate_email.1 h
    exact ⟨s, rfl, ⟨h1, h2⟩, h3⟩
  | enumeration vals ign =>
    simp only [validateLeaf] at h
    split at h
    · rename_i hi
      cases h
      exact List.any_eq_true.1 hi
    · simp at h
  | error =>
    cases v <;> simp [validateLeaf] at h
    subst h; exact ⟨_, _, _, _, _, rfl⟩
  | float mn mx =>
    cases v <;> simp only [validateLeaf, reduceCtorEq, bounds_split] at h
    obtain ⟨h1, h2, h3⟩ := h
    cases h3
    refine ⟨_, rfl, fun m hm => ?_, fun m hm => ?_⟩
    · intro hx; rw [← float_lt_iff, h1 m hm] at hx; cases hx
    · intro hx; rw [← float_lt_iff, h2 m hm] at hx; cases hx
  | integer mn mx => obtain ⟨i, rfl, rfl, hw⟩ := validate_integer.1 h; exact ⟨i, rfl, hw⟩
  | object => trivial
  | surrogate valid =>
    cases v <;> simp only [validateLeaf, reduceCtorEq] at h
    split at h
    · rename_i hv; cases h; exact ⟨_, rfl, by simpa using hv⟩
    · simp at h
  | text p mn mx b =>
    obtain ⟨s, t, _, hf, rfl, h1, h2, h3⟩ := validate_text.1 h
    exact ⟨t, rfl, ⟨h1, h2⟩, h3, hf.ends⟩
  | time mn mx =>
    cases v <;> simp only [validateLeaf, reduceCtorEq, bounds_split] at h
    obtain ⟨h1, h2, h3⟩ := h
    cases h3
    refine ⟨_, rfl, fun m hm => ?_, fun m hm => ?_⟩
    · intro hx; rw [← time_key_lt, h1 m hm] at hx; cases hx
    · intro hx; rw [← time_key_lt, h2 m hm] at hx; cases hx
  | token seg => obtain ⟨rfl, s, rfl, t, k, h1, h2, h3⟩ := validate_token.1 h; exact ⟨s, t, k, rfl, h1, h2, h3⟩
  | uuid => obtain ⟨rfl, h⟩ := validate_uuid.1 h; exact h

/-- Validation changes the value only of stripped texts and of datetimes. -/
theorem validateLeaf_fixed {env : Env} {f : Field} {k : Leaf} {v w : Val} {anc : List Str} (hk : ¬ rewrites k)
    (h : validateLeaf env f k v anc = .ok w) : w = v := by
  by_cases ht : ∃ p a b s, k = .text p a b s
  · obtain ⟨p, a, b, s, rfl⟩ := ht
    obtain ⟨s', t, rfl, hf, rfl, _⟩ := validate_text.1 h
    cases s with
    | true => exact absurd rfl hk
    | false => simp only [TextForm, Bool.false_eq_true, if_false] at hf; rw [hf]
  · refine validateLeaf_same (fun p a b s he => ht ⟨p, a, b, s, he⟩) (fun a b u he => ?_) h
    subst he; exact hk trivial

theorem isNull_cases {f : Field} {v : Val} {anc : List Str} {b : Bool} (h : isNull f v anc = .ok b) :
    ∃ c, f.common? = some c ∧ b = (nullView f v).isNone ∧ (b = true → c.nonnull = false) := by
  unfold isNull at h
  split at h
  · simp at h
  · rename_i c hc
    refine ⟨c, hc, ?_⟩
    split at h
    · rename_i hn
      split at h
      · simp at h
      · rename_i hnn; cases h; exact ⟨hn.symm, fun _ => by simpa using hnn⟩
    · rename_i hn; cases h; exact ⟨(Bool.eq_false_iff.2 hn).symm, by simp⟩

theorem isNull_none_false {f : Field} {anc : List Str} (h : isNull f .none anc = .ok false) : False := by
  obtain ⟨c, _, h1, _⟩ := isNull_cases h
  have : nullView f .none = .none := by
    unfold nullView
    split
    · split <;> rfl
    · rfl
  rw [this] at h1; cases h1

theorem leaf_conforms {env : Env} (hz : ZoneLaw env) {c : Common} {k : Leaf} {v w : Val} {ph : Phase} {ser : Bool}
    {anc : List Str} (hn : ser = false ∨ ph = .inbound) (h : processLeaf env c k v ph ser anc = .ok w) :
    Conforms env ph (.leaf c k) w := by
  rcases processLeaf_ok.1 h with ⟨h1, rfl⟩ | ⟨h1, v1, v2, v3, hd, hp, hc, hv, he⟩
  · obtain ⟨c', hc, _, h2⟩ := isNull_cases h1
    exact .null hc (h2 rfl)
  · have hw : v3 = w := by
      unfold encodeStep at he
      rw [if_neg (by rintro ⟨rfl, rfl⟩; rcases hn with h | h <;> cases h)] at he
      cases he; rfl
    subst hw
    refine .leaf (validateLeaf_value hz hv) (fun hk => by rwa [validateLeaf_fixed hk hv]) ?_
    rintro rfl
    by_cases hpre : c.pre = none
    · have hval := validateLeaf_value hz hv
      cases k <;> (try (simp only [LeafValue, reduceCtorEq, false_and, exists_false, and_false, or_self] at hval; done))
      · have := validateLeaf_fixed (k := .any) (by simp [rewrites]) hv
        subst this
        simp only [preprocess, hpre, Except.ok.injEq] at hp
        subst hp
        have : v = .none := by
          unfold decodeStep at hd
          split at hd
          · simp only [unserializeLeaf, Except.ok.injEq] at hd; exact hd
          · cases hd; rfl
        subst this
        exact (isNull_none_false h1).elim
      · rename_i vals ign
        have := validateLeaf_fixed (k := .enumeration vals ign) (by simp [rewrites]) hv
        subst this
        simp only [preprocess, hpre, Except.ok.injEq] at hp
        subst hp
        have : v = .none := by
          unfold decodeStep at hd
          split at hd
          · simp only [unserializeLeaf, Except.ok.injEq] at hd; exact hd
          · cases hd; rfl
        subst this
        exact (isNull_none_false h1).elim
      · exact .inr (.inr rfl)
    · exact .inr (.inl hpre)

theorem callChild_ok {env : Env} {rec : Proc} {f : Field} {v w : Val} {ph : Phase} {ser : Bool} {anc : List Str}
    (h : callChild env rec f v ph ser anc = .ok w) : ∃ g, resolve env f = some g ∧ rec g v ph ser anc = .ok w := by
  unfold callChild at h
  split at h
  · simp at h
  · exact ⟨_, by assumption, h⟩

theorem collect_true {r : Except Exn Val} {x : Val × Bool} (h : collect r = .ok x) (hx : x.2 = true) : r = .ok x.1 := by
  unfold collect at h
  split at h
  · cases h; rfl
  · cases h; cases hx
  · simp at h

/-- What the key loop of a structure has stored so far. -/
def Stored (env : Env) (ph : Phase) (order : List Str) (defn : List (Str × Field)) (out : List (Val × Val)) : Prop :=
  DistinctKeys out ∧ ∀ e ∈ out, ∃ name g c, e.1 = .str name ∧ name ∈ order ∧ Declares env defn name g c ∧
    Conforms env ph g e.2

theorem Stored.set {env : Env} {ph : Phase} {order : List Str} {defn : List (Str × Field)} {out : List (Val × Val)}
    (h : Stored env ph order defn out) {name : Str} {g : Field} {c : Common} {x : Val} (hn : name ∈ order)
    (hd : Declares env defn name g c) (hx : Conforms env ph g x) :
    Stored env ph order defn (dictSet out (.str name) x) := by
  refine ⟨dictSet_distinct h.1, fun e he => ?_⟩
  rcases mem_dictSet he with he | ⟨h1, h2 | ⟨h2, _⟩⟩
  · exact h.2 e he
  · exact ⟨name, g, c, h2, hn, hd, h1 ▸ hx⟩
  · exact ⟨name, g, c, (pyEq_str_left _ _).1 h2, hn, hd, h1 ▸ hx⟩

section struct
variable {env : Env} {n : Nat} {ph : Phase} {ser : Bool}
  (ih : ∀ f v anc w, process env n f v ph ser anc = .ok w → Conforms env ph f w)
include ih

theorem structField_stored {order : List Str} {defn : List (Str × Field)} {anc : List Str} {name : Str} {field : Field}
    {fv : Val} {st st' : SState} (hn : name ∈ order) (hl : defn.lookup name = some field)
    (h : structField env (process env n) ph ser anc name field fv st = .ok st') (hv : st'.valid = true)
    (hs : Stored env ph order defn st.out) :
    st.valid = true ∧ Stored env ph order defn st'.out ∧ (∀ e ∈ st.out, ∃ e' ∈ st'.out, e'.1 = e.1) ∧
    ∃ g c, Declares env defn name g c ∧ ((c.ignoreNull = true ∧ fv = .none) ∨ ∃ e ∈ st'.out, e.1 = .str name) := by
  unfold structField at h
  split at h
  · simp at h
  · rename_i g hg
    split at h
    · simp at h
    · rename_i c hc
      have hd : Declares env defn name g c := ⟨field, hl, hg, hc⟩
      split at h
      · rename_i hi
        cases h
        simp only [Bool.and_eq_true, isNone_iff] at hi
        exact ⟨hv, hs, fun e he => ⟨e, he, rfl⟩, g, c, hd, .inl hi⟩
      · rw [except_bind_eq_ok] at h
        obtain ⟨x, hx, h⟩ := h
        cases h
        simp only [Bool.and_eq_true] at hv
        have hx' := collect_true hx hv.2
        refine ⟨hv.1, hs.set hn hd (ih _ _ _ _ hx'), fun e he => dictSet_keeps he, g, c, hd, .inr ?_⟩
        obtain ⟨e, he, _, h1 | h1⟩ := dictSet_has (d := st.out) (k := .str name) (v := x.1)
        · exact ⟨e, he, h1⟩
        · exact ⟨e, he, (pyEq_str_left _ _).1 h1⟩

theorem structStep_stored {f : Field} {value : List (Val × Val)} {order : List Str} {defn : List (Str × Field)}
    {anc : List Str} {name : Str} {st st' : SState} (hn : name ∈ order)
    (h : structStep env (process env n) f value defn ph ser false anc name st = .ok st') (hv : st'.valid = true)
    (hs : Stored env ph order defn st.out) :
    st.valid = true ∧ Stored env ph order defn st'.out ∧ (∀ e ∈ st.out, ∃ e' ∈ st'.out, e'.1 = e.1) ∧
    ∃ g c, Declares env defn name g c ∧ (MustAppear c ph → ∃ e ∈ st'.out, e.1 = .str name) := by
  unfold structStep at h
  split at h
  · simp at h
  · rename_i field hl
    split at h
    · obtain ⟨h1, h2, h3, g, c, hd, h4⟩ := structField_stored ih hn hl h hv hs
      refine ⟨h1, h2, h3, g, c, hd, fun hm => ?_⟩
      rcases h4 with ⟨h4, _⟩ | h4
      · rw [hm.1] at h4; cases h4
      · exact h4
    · simp only [Bool.false_eq_true, if_false] at h
      split at h
      · simp at h
      · rename_i c hc
        rw [Option.bind_eq_some_iff] at hc
        obtain ⟨g, hg, hc⟩ := hc
        split at h
        · rename_i hdef
          obtain ⟨h1, h2, h3, g', c', hd, h4⟩ := structField_stored ih hn hl h hv hs
          obtain ⟨rfl, rfl⟩ := hd.unique ⟨field, hl, hg, hc⟩
          refine ⟨h1, h2, h3, _, _, hd, fun hm => ?_⟩
          rcases h4 with ⟨h4, _⟩ | h4
          · rw [hm.1] at h4; cases h4
          · exact h4
        · rename_i hdef
          split at h
          · split at h
            · cases h; cases hv
            · simp at h
          · rename_i hr
            cases h
            refine ⟨hv, hs, fun e he => ⟨e, he, rfl⟩, g, c, ⟨field, hl, hg, hc⟩, fun hm => ?_⟩
            rcases hm.2 with h | ⟨h1, h2⟩
            · exact absurd h hr
            · refine absurd ⟨h1, ?_⟩ hdef
              cases hnn : c.default.isNone
              · rfl
              · exact absurd ((isNone_iff _).1 hnn) h2

theorem structLoop_stored {f : Field} {value : List (Val × Val)} {order : List Str} {defn : List (Str × Field)}
    {anc : List Str} {names : List Str} {st st' : SState} (hn : ∀ name ∈ names, name ∈ order)
    (h : structLoop env (process env n) f value defn ph ser false anc names st = .ok st') (hv : st'.valid = true)
    (hs : Stored env ph order defn st.out) :
    st.valid = true ∧ Stored env ph order defn st'.out ∧ (∀ e ∈ st.out, ∃ e' ∈ st'.out, e'.1 = e.1) ∧
    ∀ name ∈ names, ∃ g c, Declares env defn name g c ∧ (MustAppear c ph → ∃ e ∈ st'.out, e.1 = .str name) := by
  induction names generalizing st with
  | nil => cases h; exact ⟨hv, hs, fun e he => ⟨e, he, rfl⟩, by simp⟩
  | cons name r ihr =>
    rw [structLoop, except_bind_eq_ok] at h
    obtain ⟨st1, h1, h2⟩ := h
    -- the state after the first name must be valid, since validity is never regained
    have hs1 : ∀ hv1 : st1.valid = true, Stored env ph order defn st1.out := fun hv1 =>
      (structStep_stored ih (hn name (List.mem_cons_self ..)) h1 hv1 hs).2.1
    have hmono : ∀ (names : List Str) (st : SState), st.valid = false →
        structLoop env (process env n) f value defn ph ser false anc names st ≠ .ok st' := by
      intro names
      induction names with
      | nil => intro st hf h; cases h; rw [hv] at hf; cases hf
      | cons a r ih2 =>
        intro st hf h
        rw [structLoop, except_bind_eq_ok] at h
        obtain ⟨st2, h3, h4⟩ := h
        refine ih2 st2 ?_ h4
        unfold structStep at h3
        have field : ∀ {fd fv st0}, st0.valid = false →
            structField env (process env n) ph ser anc a fd fv st0 = .ok st2 → st2.valid = false := by
          intro fd fv st0 h0 h
          unfold structField at h
          split at h
          · simp at h
          · split at h
            · simp at h
            · split at h
              · cases h; exact h0
              · rw [except_bind_eq_ok] at h
                obtain ⟨x, _, h⟩ := h
                cases h; simp [h0]
        split at h3
        · simp at h3
        · split at h3
          · refine field ?_ h3; exact hf
          · simp only [Bool.false_eq_true, if_false] at h3
            split at h3
            · simp at h3
            · split at h3
              · exact field hf h3
              · split at h3
                · split at h3
                  · cases h3; rfl
                  · simp at h3
                · cases h3; exact hf
    have hv1 : st1.valid = true := by
      cases hx : st1.valid
      · exact absurd h2 (hmono _ _ hx)
      · rfl
    obtain ⟨a1, a2, a3, a4⟩ := structStep_stored ih (hn name (List.mem_cons_self ..)) h1 hv1 hs
    obtain ⟨b1, b2, b3, b4⟩ := ihr (fun x hx => hn x (List.mem_cons_of_mem _ hx)) h2 a2
    refine ⟨a1, b2, fun e he => ?_, fun x hx => ?_⟩
    · obtain ⟨e', he', h'⟩ := a3 e he
      obtain ⟨e'', he'', h''⟩ := b3 e' he'
      exact ⟨e'', he'', h''.trans h'⟩
    · rcases List.mem_cons.1 hx with rfl | hx
      · obtain ⟨g, c, hd, hm⟩ := a4
        refine ⟨g, c, hd, fun h => ?_⟩
        obtain ⟨e, he, h'⟩ := hm h
        obtain ⟨e', he', h''⟩ := b3 e he
        exact ⟨e', he', h''.trans h'⟩
      · exact b4 x hx

theorem structBody_stored {f : Field} {strict : Bool} {order : List Str} {value : List (Val × Val)}
    {defn : List (Str × Field)} {anc : List Str} {w : Val}
    (h : structBody env (process env n) f strict order defn value ph ser false anc = .ok w) :
    ∃ out, w = .dict out ∧ Stored env ph order defn out ∧
      ∀ name ∈ order, ∃ g c, Declares env defn name g c ∧ (MustAppear c ph → ∃ e ∈ out, e.1 = .str name) := by
  unfold structBody at h
  rw [except_bind_eq_ok] at h
  obtain ⟨st, h1, h⟩ := h
  have h : ((if strict = true then structUnknown env f anc st.names st else .ok st) >>= fun st =>
      if st.valid = true then Except.ok (Val.dict st.out)
      else .error (.structural ⟨.validation, anc, [], .dict st.out, .dict value⟩)) = .ok w := by
    cases strict <;> exact h
  rw [except_bind_eq_ok] at h
  obtain ⟨st2, h2, h3⟩ := h
  split at h3
  · rename_i hv
    cases h3
    have : st2 = st := by
      split at h2
      · exact (structUnknown_valid _ _ _ _ _ _ h2 hv).2
      · cases h2; rfl
    subst this
    obtain ⟨_, b, _, d⟩ := structLoop_stored ih (order := order) (fun _ h => h) h1 hv ⟨.nil, by simp⟩
    exact ⟨_, rfl, b, d⟩
  · simp at h3

end struct

theorem mapKey_ok {env : Env} {rec : Proc} {f : Field} {whole : Val} {key : Option Field} {ph : Phase} {ser : Bool}
    {anc : List Str} {k k' : Val} (h : mapKey env rec f whole key ph ser anc k = .ok k') :
    (key = none ∧ k' = k ∧ ∃ s, k = .str s) ∨ ∃ kf anc', key = some kf ∧ rec kf k ph ser anc' = .ok k' := by
  unfold mapKey at h
  split at h
  · rename_i kf
    rw [except_bind_eq_ok] at h
    obtain ⟨st, _, h⟩ := h
    split at h
    · rename_i hp; cases h; exact .inr ⟨kf, _, rfl, hp⟩
    · simp at h
    · simp at h
  · split at h
    · rename_i hs
      cases h
      cases k <;> simp [Val.isStr] at hs
      exact .inl ⟨rfl, rfl, _, rfl⟩
    · simp at h

theorem entryOut_ok {env : Env} {rec : Proc} {f : Field} {whole : Val} {key : Option Field} {value : Field} {ph : Phase}
    {ser : Bool} {anc : List Str} {e : Val × Val} {r : Val × Val × Bool}
    (h : entryOut env rec f whole key value ph ser anc e = .ok r) :
    ((key = none ∧ r.1 = e.1 ∧ ∃ s, e.1 = .str s) ∨ ∃ kf anc', key = some kf ∧ rec kf e.1 ph ser anc' = .ok r.1) ∧
    (r.2.2 = true → ∃ g anc', resolve env value = some g ∧ rec g e.2 ph ser anc' = .ok r.2.1) := by
  unfold entryOut at h
  rw [except_bind_eq_ok] at h
  obtain ⟨k', hk, h⟩ := h
  rw [except_bind_eq_ok] at h
  obtain ⟨st, _, h⟩ := h
  rw [except_bind_eq_ok] at h
  obtain ⟨x, hx, h⟩ := h
  split at h
  · cases h
    refine ⟨mapKey_ok hk, fun hv => ?_⟩
    obtain ⟨g, hg, h⟩ := callChild_ok (collect_true hx hv)
    exact ⟨g, _, hg, h⟩
  · simp at h

/-- Folding entries into a dict keeps what holds of every entry. -/
theorem foldl_dictSet_inv {P Q : Val → Prop} (es : List (Val × Val × Bool)) (acc : List (Val × Val))
    (hacc : DistinctKeys acc ∧ ∀ e ∈ acc, P e.1 ∧ Q e.2) (hes : ∀ e ∈ es, P e.1 ∧ Q e.2.1) :
    DistinctKeys (es.foldl (fun a e => dictSet a e.1 e.2.1) acc) ∧
      ∀ e ∈ es.foldl (fun a e => dictSet a e.1 e.2.1) acc, P e.1 ∧ Q e.2 := by
  induction es generalizing acc with
  | nil => exact hacc
  | cons e r ih =>
    refine ih _ ⟨dictSet_distinct hacc.1, fun x hx => ?_⟩ (fun x hx => hes x (List.mem_cons_of_mem _ hx))
    have he := hes e (List.mem_cons_self ..)
    rcases mem_dictSet hx with hx | ⟨h1, h2 | ⟨_, y, h2⟩⟩
    · exact hacc.2 x hx
    · exact ⟨h2 ▸ he.1, h1 ▸ he.2⟩
    · exact ⟨(hacc.2 _ h2).1, h1 ▸ he.2⟩

theorem mapRequired_nonempty {d : List (Val × Val)} {es : List (Val × Val × Bool)}
    (h : es.foldl (fun a e => dictSet a e.1 e.2.1) [] = d) (hd : d ≠ []) : es ≠ [] := by
  rintro rfl; exact hd h.symm

/-- C01. Whatever inbound (or native outbound) processing returns conforms to the schema: leaves have the
native type and satisfy the bounds, lengths, pattern, enumeration and constant of their field; containers have
the declared shape; required and defaulted members are there; nothing undeclared is; None only where allowed. -/
theorem C01_conforms (env : Env) (hz : ZoneLaw env) (n : Nat) (f : Field) (v w : Val) (ph : Phase) (ser : Bool)
    (anc : List Str) (hn : ser = false ∨ ph = .inbound) (h : process env n f v ph ser anc = .ok w) :
    Conforms env ph f w := by
  induction n generalizing f v anc w with
  | zero => simp [process] at h
  | succ n ih =>
    have ih' : ∀ f v anc w, process env n f v ph ser anc = .ok w → Conforms env ph f w :=
      fun f v anc w h => ih f v w anc h
    have h : processStep env (process env n) f v ph ser anc = .ok w := h
    cases f with
    | leaf c k => exact leaf_conforms hz hn h
    | undef s => cases h
    | sequence c item mn mx u =>
      simp only [processStep, processSequence] at h
      rw [except_bind_eq_ok] at h
      obtain ⟨b, hb, h⟩ := h
      obtain ⟨c', hc, hb1, hb2⟩ := isNull_cases hb
      split at h
      · rename_i hbt; cases h; exact .null hc (hb2 hbt)
      · split at h
        · rw [except_bind_eq_ok] at h
          obtain ⟨i, _, h⟩ := h
          split at h
          · rename_i l _
            split at h
            · simp at h
            · rename_i h1
              split at h
              · simp at h
              · rename_i h2
                rw [except_bind_eq_ok] at h
                obtain ⟨r, hr, h⟩ := h
                split at h
                · simp at h
                · rename_i hv
                  simp only [Bool.not_eq_eq_eq_not, Bool.not_true, Bool.not_eq_false] at hv
                  obtain ⟨rs, rb⟩ := r
                  simp only at hv
                  subst hv
                  rw [seqLoop_eq, collectAll_ok_true] at hr
                  have hlen : rs.length = l.length := by
                    have := congrArg List.length hr; simpa using this.symm
                  have hch : ∀ x ∈ rs, ∃ g, resolve env item = some g ∧ Conforms env ph g x := by
                    intro x hx
                    have : Except.ok x ∈ List.map (Except.ok (ε := Exn)) rs := List.mem_map.2 ⟨x, hx, rfl⟩
                    rw [← hr, List.mem_mapIdx] at this
                    obtain ⟨j, hj, h⟩ := this
                    obtain ⟨g, hg, h⟩ := callChild_ok h
                    exact ⟨g, hg, ih' _ _ _ _ h⟩
                  have fin : ∀ hu : (u = true → rs.Pairwise fun a b => pyEq a b = false),
                      Conforms env ph (.sequence c item mn mx u) (.list rs) := by
                    intro hu
                    refine .sequence ⟨fun m hm => ?_, fun m hm => ?_⟩ hu ?_ ?_
                    · rw [hlen]; subst hm; simp at h1; exact h1
                    · rw [hlen]; subst hm; simp at h2; exact h2
                    · intro hne
                      obtain ⟨x, hx⟩ := List.exists_mem_of_ne_nil _ hne
                      obtain ⟨g, hg, _⟩ := hch x hx
                      exact ⟨g, hg⟩
                    · intro g hg x hx
                      obtain ⟨g', hg', hcx⟩ := hch x hx
                      rw [hg] at hg'; cases hg'; exact hcx
                  split at h
                  · split at h
                    · split at h
                      · rename_i hd
                        cases h
                        exact fin (fun _ => (allDistinct_iff _).1 hd)
                      · simp at h
                    · simp at h
                  · rename_i hu; cases h; exact fin (fun h => absurd h hu)
          · simp at h
        · simp at h
    | tuple c fs =>
      simp only [processStep, processTuple] at h
      rw [except_bind_eq_ok] at h
      obtain ⟨b, hb, h⟩ := h
      obtain ⟨c', hc, hb1, hb2⟩ := isNull_cases hb
      split at h
      · rename_i hbt; cases h; exact .null hc (hb2 hbt)
      · have body : ∀ (w' : Val) (l : List Val), (do
            if l.length ≠ fs.length then
              throw (mkErr (.tuple c fs) .validation (ancOr (.tuple c fs) anc) w' c!"length" [(c!"length", natStr fs.length)])
            let r ← tupLoop env (process env n) ph ser (ancOr (.tuple c fs) anc) 0 fs l
            if r.2 then return .tuple r.1
            else throw (.structural ⟨.validation, ancOr (.tuple c fs) anc, [], .list r.1, w'⟩) : Except Exn Val) = .ok w →
            Conforms env ph (.tuple c fs) w := by
          intro w' l h
          simp only [bind, Except.bind, throw, throwThe, MonadExceptOf.throw, pure, Except.pure] at h
          split at h
          · simp at h
          · rename_i hlen
            simp only [ne_eq, Decidable.not_not] at hlen
            split at h
            · simp at h
            · rename_i r hr
              split at h
              · rename_i hv
                cases h
                obtain ⟨rs, rb⟩ := r
                simp only at hv
                subst hv
                rw [tupLoop_eq, collectAll_ok_true] at hr
                have hl : rs.length = fs.length := by
                  have := congrArg List.length hr
                  simp only [List.length_mapIdx, List.length_zip, List.length_map] at this
                  omega
                have hch : ∀ p ∈ fs.zip rs, ∃ g, resolve env p.1 = some g ∧ Conforms env ph g p.2 := by
                  intro p hp
                  obtain ⟨i, hi, rfl⟩ := List.getElem_of_mem hp
                  simp only [List.length_zip] at hi
                  have e : ((fs.zip l).mapIdx fun j x => callChild env (process env n) x.1 x.2 ph ser
                      (ancOr (.tuple c fs) anc ++ [idxStep (0 + j)]))[i]? = some (.ok rs[i]) := by
                    rw [hr]; simp
                  rw [List.getElem?_mapIdx] at e
                  have hz : (fs.zip l)[i]? = some (fs[i], l[i]) := by
                    rw [List.getElem?_eq_getElem (by simp; omega)]; simp
                  rw [hz] at e
                  simp only [Option.map_some, Option.some.injEq] at e
                  obtain ⟨g, hg, h⟩ := callChild_ok e
                  refine ⟨g, by simpa using hg, ?_⟩
                  simpa using ih' _ _ _ _ h
                refine .tuple hl (fun p hp => ?_) (fun p hp g hg => ?_)
                · obtain ⟨g, hg, _⟩ := hch p hp; exact ⟨g, hg⟩
                · obtain ⟨g', hg', h⟩ := hch p hp
                  rw [hg] at hg'; cases hg'; exact h
              · simp at h
        have go : (do
            match ← rawPre env c v with
            | .list l => do
              if l.length ≠ fs.length then
                throw (mkErr (.tuple c fs) .validation (ancOr (.tuple c fs) anc) (.list l) c!"length" [(c!"length", natStr fs.length)])
              let r ← tupLoop env (process env n) ph ser (ancOr (.tuple c fs) anc) 0 fs l
              if r.2 then return .tuple r.1
              else throw (.structural ⟨.validation, ancOr (.tuple c fs) anc, [], .list r.1, .list l⟩)
            | .tuple l => do
              if l.length ≠ fs.length then
                throw (mkErr (.tuple c fs) .validation (ancOr (.tuple c fs) anc) (.tuple l) c!"length" [(c!"length", natStr fs.length)])
              let r ← tupLoop env (process env n) ph ser (ancOr (.tuple c fs) anc) 0 fs l
              if r.2 then return .tuple r.1
              else throw (.structural ⟨.validation, ancOr (.tuple c fs) anc, [], .list r.1, .tuple l⟩)
            | _ => throw (.py .typeError) : Except Exn Val) = .ok w → Conforms env ph (.tuple c fs) w := by
          intro h
          rw [except_bind_eq_ok] at h
          obtain ⟨i, _, h⟩ := h
          cases i <;> first | exact body _ _ h | (cases h; done)
        cases v <;> first | exact go h | (cases h; done)
    | map c key value req =>
      simp only [processStep, processMap] at h
      rw [except_bind_eq_ok] at h
      obtain ⟨b, hb, h⟩ := h
      obtain ⟨c', hc, hb1, hb2⟩ := isNull_cases hb
      split at h
      · rename_i hbt; cases h; exact .null hc (hb2 hbt)
      · split at h
        · rw [except_bind_eq_ok] at h
          obtain ⟨i, _, h⟩ := h
          split at h
          · rename_i d _
            rw [except_bind_eq_ok] at h
            obtain ⟨r, hr, h⟩ := h
            rw [except_bind_eq_ok] at h
            obtain ⟨r2, hr2, h⟩ := h
            split at h
            · rename_i hv
              cases h
              obtain ⟨out, ok⟩ := r2
              simp only at hv
              subst hv
              obtain ⟨hrv, rfl, hreq⟩ := (mapRequired_ok_true _ _ _ _ _ _ _).1 hr2
              rw [mapLoop_eq, except_bind_eq_ok] at hr
              obtain ⟨es, hes, h⟩ := hr
              cases h
              rw [seqAll_eq_ok] at hes
              simp only [Bool.true_and, List.all_eq_true] at hrv
              have he : ∀ x ∈ es, ∃ e ∈ d, entryOut env (process env n) (.map c key value req) (.dict d) key value ph ser
                  (ancOr (.map c key value req) anc) e = .ok x := by
                intro x hx
                have : Except.ok x ∈ List.map (Except.ok (ε := Exn)) es := List.mem_map.2 ⟨x, hx, rfl⟩
                rw [← hes, List.mem_map] at this
                exact this
              have hval : ∀ x ∈ es, ∃ g, resolve env value = some g ∧ Conforms env ph g x.2.1 := by
                intro x hx
                obtain ⟨e, _, h⟩ := he x hx
                obtain ⟨g, a, hg, h⟩ := (entryOut_ok h).2 (hrv x hx)
                exact ⟨g, hg, ih' _ _ _ _ h⟩
              have inv := foldl_dictSet_inv
                (P := fun k => (key = none → ∃ s, k = .str s) ∧ ∀ kf, key = some kf → Conforms env ph kf k)
                (Q := fun x => ∀ g, resolve env value = some g → Conforms env ph g x) es []
                ⟨.nil, by simp⟩ (by
                  intro x hx
                  obtain ⟨e, _, h⟩ := he x hx
                  refine ⟨?_, ?_⟩
                  · rcases (entryOut_ok h).1 with ⟨rfl, h1, h2⟩ | ⟨kf, a, rfl, h1⟩
                    · exact ⟨fun _ => h1 ▸ h2, by simp⟩
                    · refine ⟨by simp, fun kf' hk => ?_⟩
                      cases hk; exact ih' _ _ _ _ h1
                  · intro g hg
                    obtain ⟨g', hg', h⟩ := hval x hx
                    rw [hg] at hg'; cases hg'; exact h)
              refine .map inv.1 (fun hk e he => (inv.2 e he).1.1 hk) (fun kf hk e he => (inv.2 e he).1.2 kf hk) ?_
                (fun g hg e he => (inv.2 e he).2 g hg) (fun k hk => (hreq k hk).2)
              intro hne
              obtain ⟨x, hx⟩ := List.exists_mem_of_ne_nil _ (mapRequired_nonempty rfl hne)
              obtain ⟨g, hg, _⟩ := hval x hx
              exact ⟨g, hg⟩
            · simp at h
          · simp at h
        · simp at h
    | union c fs =>
      simp only [processStep, processUnion] at h
      rw [except_bind_eq_ok] at h
      obtain ⟨b, hb, h⟩ := h
      obtain ⟨c', hc, hb1, hb2⟩ := isNull_cases hb
      split at h
      · rename_i hbt; cases h; exact .null hc (hb2 hbt)
      · have loop : ∀ fs', unionLoop env (process env n) v ph ser (ancOr (.union c fs) anc) fs' = some (.ok w) →
            ∃ f ∈ fs', ∃ g, resolve env f = some g ∧ Conforms env ph g w := by
          intro fs'
          induction fs' with
          | nil => intro h; cases h
          | cons f r ihr =>
            intro h
            rw [unionLoop] at h
            split at h
            · split at h
              · obtain ⟨f', hf, h⟩ := ihr h
                exact ⟨f', List.mem_cons_of_mem _ hf, h⟩
              · cases h
            · simp only [Option.some.injEq] at h
              obtain ⟨g, hg, h⟩ := callChild_ok h
              exact ⟨f, List.mem_cons_self .., g, hg, ih' _ _ _ _ h⟩
        split at h
        · rename_i r hr
          subst h
          obtain ⟨f, hf, g, hg, h⟩ := loop fs hr
          exact .union hf hg h
        · simp at h
    | «structure» c defn strict ko =>
      simp only [processStep, processStructure] at h
      rw [except_bind_eq_ok] at h
      obtain ⟨b, hb, h⟩ := h
      obtain ⟨c', hc, hb1, hb2⟩ := isNull_cases hb
      split at h
      · rename_i hbt; cases h; exact .null hc (hb2 hbt)
      · split at h
        · rw [except_bind_eq_ok] at h
          obtain ⟨i, _, h⟩ := h
          split at h
          · have ho : (if ko.isEmpty then defn.map (·.1) else ko) = visited defn ko := by
              cases ko <;> rfl
            rw [ho] at h
            obtain ⟨out, rfl, ⟨h1, h2⟩, h3⟩ := structBody_stored ih' h
            refine .structure h1 (fun e he => ?_) (fun e he name g c hn hd => ?_) (fun name hn g c hd hm => ?_)
            · obtain ⟨name, g, c, a1, a2, a3, _⟩ := h2 e he
              exact ⟨name, g, c, a1, a2, a3⟩
            · obtain ⟨name', g', c', a1, a2, a3, a4⟩ := h2 e he
              rw [hn] at a1; cases a1
              obtain ⟨rfl, rfl⟩ := hd.unique a3
              exact a4
            · obtain ⟨g', c', hd', h⟩ := h3 name hn
              obtain ⟨rfl, rfl⟩ := hd.unique hd'
              exact h hm
          · simp at h
        · simp at h
    | poly c disc vs strict ko =>
      simp only [processStep, processPoly] at h
      rw [except_bind_eq_ok] at h
      obtain ⟨b, hb, h⟩ := h
      obtain ⟨c', hc, hb1, hb2⟩ := isNull_cases hb
      split at h
      · rename_i hbt; cases h; exact .null hc (hb2 hbt)
      · split at h
        · rw [except_bind_eq_ok] at h
          obtain ⟨i, _, h⟩ := h
          split at h
          · split at h
            · simp at h
            · rw [except_bind_eq_ok] at h
              obtain ⟨id, hid, h⟩ := h
              split at h
              · simp at h
              · split at h
                · simp at h
                · rename_i defn hvar
                  split at h
                  · simp at h
                  · split at h
                    · simp at h
                    · have ho : (if ko.isEmpty then defn.map (·.1) else ko) = visited defn ko := by
                        cases ko <;> rfl
                      rw [ho] at h
                      have hmem : ∀ vs, variantGet vs id = some defn → ∃ i, (i, defn) ∈ vs ∧ pyEq id i = true := by
                        intro vs
                        induction vs with
                        | nil => intro h; cases h
                        | cons x r ihr =>
                          obtain ⟨i, dd⟩ := x
                          intro h
                          rw [variantGet] at h
                          split at h
                          · rename_i hi; cases h; exact ⟨i, List.mem_cons_self .., hi⟩
                          · obtain ⟨j, h1, h2⟩ := ihr h; exact ⟨j, List.mem_cons_of_mem _ h1, h2⟩
                      obtain ⟨j, hj1, hj2⟩ := hmem vs hvar
                      obtain ⟨out, rfl, ⟨h1, h2⟩, h3⟩ := structBody_stored ih' h
                      refine .poly hj1 hj2 (ih' _ _ _ _ hid) h1 (fun e he => ?_) (fun e he name g c hn hd => ?_)
                        (fun name hn g c hd hm => ?_)
                      · obtain ⟨name, g, c, a1, a2, a3, _⟩ := h2 e he
                        exact ⟨name, g, c, a1, a2, a3⟩
                      · obtain ⟨name', g', c', a1, a2, a3, a4⟩ := h2 e he
                        rw [hn] at a1; cases a1
                        obtain ⟨rfl, rfl⟩ := hd.unique a3
                        exact a4
                      · obtain ⟨g', c', hd', h⟩ := h3 name hn
                        obtain ⟨rfl, rfl⟩ := hd.unique hd'
                        exact h hm
          · simp at h
        · simp at h

/-- A tree: `Structure({'value': Integer(minimum=1, required=True), 'kids': Sequence(<itself>)})`. -/
def Ex.tree : Field := .structure {} [(c!"value", .leaf { required := true } (.integer (some 1) none)),
  (c!"label", .leaf { default := .str c!"none" } (.text none none none true)),
  (c!"kids", .sequence {} (.undef 0) none none false)] true []

def Ex.treeEnv : Env := { Ex.env with defs := fun _ => some Ex.tree }

theorem Ex.tree_processed : process Ex.treeEnv 5 Ex.tree (.dict [(.str c!"kids", .list [.dict [
      (.str c!"value", .str c!"2"), (.str c!"label", .str c!" two ")]]), (.str c!"value", .int 1)]) .inbound true [] =
    .ok (.dict [(.str c!"value", .int 1), (.str c!"label", .str c!"none"), (.str c!"kids", .list [
      .dict [(.str c!"value", .int 2), (.str c!"label", .str c!"two")]])]) := rfl

example : Conforms Ex.treeEnv .inbound Ex.tree (.dict [(.str c!"value", .int 1), (.str c!"label", .str c!"none"),
    (.str c!"kids", .list [.dict [(.str c!"value", .int 2), (.str c!"label", .str c!"two")]])]) :=
  C01_conforms _ (by intro d w d' h; cases h; rfl) 5 _ _ _ _ _ _ (.inr rfl) Ex.tree_processed

/-- The notion has content: these values conform to nothing of the kind. -/
example : ¬ Conforms Ex.env .inbound (.leaf { nonnull := true } (.integer (some 1) none)) (.int 0) := by
  intro h
  cases h with
  | leaf h _ _ =>
    obtain ⟨i, hi, h1, _⟩ := h
    cases hi
    exact absurd (h1 1 rfl) (by decide)

example : ¬ Conforms Ex.treeEnv .inbound Ex.tree (.dict [(.str c!"label", .str c!"x")]) := by
  intro h
  cases h with
  | «structure» h1 h2 h3 h4 =>
    have hd : Declares Ex.treeEnv [(c!"value", .leaf { required := true } (.integer (some 1) none)),
      (c!"label", .leaf { default := .str c!"none" } (.text none none none true)),
      (c!"kids", .sequence {} (.undef 0) none none false)] c!"value"
        (.leaf { required := true } (.integer (some 1) none)) { required := true } := ⟨_, rfl, rfl, rfl⟩
    obtain ⟨e, he, h⟩ := h4 c!"value" (by decide) _ _ hd ⟨rfl, .inl rfl⟩
    simp only [List.mem_singleton] at he
    subst he
    simp at h

/-- Why the null clause has exceptions: what a preprocessor returns is not checked for null again. -/
theorem C01_preprocessor_may_give_null :
    process { Ex.env with pre := fun _ _ => .ok .none } 1 (.leaf { nonnull := true, pre := some 0 } .any) (.int 1)
      .inbound false [] = .ok .none := rfl

/-- Why `MustAppear` excludes `ignore_null`: a required member given as None is dropped, and accepted. -/
theorem C01_required_null_dropped :
    process Ex.env 2 (.structure {} [(c!"a", .leaf { required := true, ignoreNull := true } (.integer none none))]
      true []) (.dict [(.str c!"a", .none)]) .inbound false [] = .ok (.dict []) := rfl

/-- Why only `visited` members must appear: a required member left out of `key_order` is not looked for. -/
theorem C01_key_order_hides_required :
    process Ex.env 2 (.structure {} [(c!"a", .leaf { required := true } (.integer none none)), (c!"b", Ex.int)]
      true [c!"b"]) (.dict [(.str c!"b", .int 1)]) .inbound false [] = .ok (.dict [(.str c!"b", .int 1)]) := rfl

end Scheme
