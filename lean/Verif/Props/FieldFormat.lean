import Verif.Model.FieldFormat
import Verif.Spec.JsonReady
import Verif.Props.RoundTrip
import Verif.Props.Json

/-! C57: fields through JSON. -/

namespace Scheme

open Json (Carries KeyText FloatText)

/-- A field reads two serialized values alike. -/
def ReadsAlike (env : Env) (n : Nat) (f : Field) (s s' : Val) : Prop :=
  ∀ a w, process env n f s .inbound true a = .ok w ↔ process env n f s' .inbound true a = .ok w

theorem choose_pairs {α β : Type} {l : List α} {Q : α → β → Prop} (h : ∀ a ∈ l, ∃ b, Q a b) :
    ∃ ps : List (α × β), ps.map (·.1) = l ∧ ∀ p ∈ ps, Q p.1 p.2 := by
  induction l with
  | nil => exact ⟨[], rfl, by simp⟩
  | cons a r ih =>
    obtain ⟨b, hb⟩ := h a (by simp)
    obtain ⟨ps, h1, h2⟩ := ih (fun a ha => h a (by simp [ha]))
    refine ⟨(a, b) :: ps, by simp [h1], ?_⟩
    intro p hp
    rcases List.mem_cons.1 hp with rfl | hp
    · exact hb
    · exact h2 p hp

theorem carries_none {env : Env} {v w : Val} (h : Carries env v w) : v = .none ↔ w = .none := by
  cases h <;> simp

/-! ### leaves -/

/-- What leaves write. -/
inductive LeafWrites (k : Leaf) (v : Val) : Val → Prop
  | none : LeafWrites k v .none
  | bool (b : Bool) : LeafWrites k v (.bool b)
  | text (t : Str) : LeafWrites k v (.str t)
  | asis : (k = .any ∨ ∃ vals ign, k = .enumeration vals ign) → LeafWrites k v v
  | int (i : Int) (mn mx : Option Int) : k = .integer mn mx → LeafWrites k v (.int i)
  | float (x : PyFloat) (mn mx : Option PyFloat) : k = .float mn mx → LeafWrites k v (.float x)
  | bytes {s : Val} (mn mx : Option Nat) : k = .binary mn mx → v ≠ .none → LeafWrites k v s

theorem leaf_writes {env : Env} (hz : ZoneLaw env) {n : Nat} {c : Common} {k : Leaf} {v s : Val} {anc : List Str}
    (hf : Faithful env (.leaf c k) v) (h : process env (n + 1) (.leaf c k) v .outbound true anc = .ok s) : LeafWrites k v s := by
  obtain ⟨hset, hf⟩ := hf
  obtain ⟨hpre, -⟩ := hset.1 c rfl
  have h' : processLeaf env c k v .outbound true anc = .ok s := h
  rcases processLeaf_ok.1 h' with ⟨h1, rfl⟩ | ⟨h1, v1, v2, v3, hd, hp, hc, hv, he⟩
  · exact .none
  · have hd : v1 = v := by
      unfold decodeStep at hd; rw [if_neg (by simp)] at hd; cases hd; rfl
    subst hd
    have he : serOut env (.leaf c k) k v3 (ancOr (.leaf c k) anc) = .ok s := by
      unfold encodeStep at he; rw [if_pos ⟨rfl, rfl⟩] at he; exact he
    have hv1 : v1 ≠ .none := by
      rintro rfl
      obtain ⟨_, _, hb, _⟩ := isNull_cases h1
      unfold nullView at hb
      split at hb
      · split at hb <;> simp [Val.isNone] at hb
      · simp [Val.isNone] at hb
    cases k with
    | any =>
      simp only [serOut, serializeLeaf, Except.ok.injEq] at he
      have := validateLeaf_fixed (by simp [rewrites]) hv
      simp only [preprocess, hpre, Except.ok.injEq] at hp
      rw [← he, this, ← hp]; exact .asis (.inl rfl)
    | enumeration vals ign =>
      simp only [serOut, serializeLeaf, Except.ok.injEq] at he
      have := validateLeaf_fixed (by simp [rewrites]) hv
      simp only [preprocess, hpre, Except.ok.injEq] at hp
      rw [← he, this, ← hp]; exact .asis (.inr ⟨_, _, rfl⟩)
    | object => exact absurd hf hv1
    | definition _ => exact absurd hf hv1
    | error => exact absurd hf hv1
    | surrogate _ => exact absurd hf hv1
    | binary mn mx => exact .bytes _ _ rfl hv1
    | boolean =>
      have : ∃ b, v3 = .bool b := validateLeaf_value hz hv
      obtain ⟨b, rfl⟩ := this
      simp only [serOut, serializeLeaf, Except.ok.injEq] at he
      subst he; exact .bool _
    | text p mn mx b =>
      obtain ⟨_, t, _, _, rfl, _⟩ := validate_text.1 hv
      simp only [serOut, serializeLeaf, Except.ok.injEq] at he
      subst he; exact .text _
    | token seg =>
      obtain ⟨rfl, t, rfl, _⟩ := validate_token.1 hv
      simp only [serOut, serializeLeaf, Except.ok.injEq] at he
      subst he; exact .text _
    | uuid =>
      obtain ⟨rfl, t, _, rfl, _⟩ := validate_uuid.1 hv
      simp only [serOut, serializeLeaf, Except.ok.injEq] at he
      subst he; exact .text _
    | email mn mx mu e =>
      obtain ⟨rfl, t, rfl, _⟩ := validate_email.1 hv
      simp only [serOut, serializeLeaf, Except.ok.injEq] at he
      subst he; exact .text _
    | integer mn mx =>
      obtain ⟨i, rfl, rfl, _⟩ := validate_integer.1 hv
      simp only [serOut, serializeLeaf, Except.ok.injEq] at he
      subst he; exact .int _ _ _ rfl
    | float mn mx =>
      have : ∃ x, v3 = .float x := by
        have := validateLeaf_value hz hv
        obtain ⟨x, h, _⟩ := this
        exact ⟨x, h⟩
      obtain ⟨b, rfl⟩ := this
      simp only [serOut, serializeLeaf, Except.ok.injEq] at he
      subst he; exact .float _ _ _ rfl
    | decimal mn mx =>
      obtain ⟨rfl, d, rfl, _⟩ := validate_decimal.1 hv
      simp only [serOut, serializeLeaf, Except.ok.injEq] at he
      subst he; exact .text _
    | date mn mx =>
      obtain ⟨rfl, hv⟩ := validate_date.1 hv
      rcases hv with ⟨d, rfl, _⟩ | ⟨d, rfl, _⟩ <;>
        (simp only [serOut, serializeLeaf, Except.ok.injEq] at he; subst he; exact .text _)
    | time mn mx =>
      obtain ⟨t, rfl, _⟩ := (validateLeaf_value hz hv : LeafValue env (.time mn mx) v3)
      simp only [serOut, serializeLeaf, Except.ok.injEq] at he
      subst he; exact .text _
    | datetime mn mx utc =>
      have hp' := hp
      simp only [preprocess, hpre, Except.ok.injEq] at hp'
      subst hp'
      obtain ⟨d, d', rfl, hn, rfl, _⟩ := validate_datetime.1 hv
      obtain ⟨x, hx, h1', h2, h3, h4⟩ := hf d rfl d' hn
      have hnat : process env (n + 1) (.leaf c (.datetime mn mx utc)) (.datetime d) .inbound false
          (ancOr (.leaf c (.datetime mn mx utc)) anc) = .ok (.datetime d') := by
        show processLeaf env c _ _ .inbound false _ = _
        rw [processLeaf_ok]
        refine .inr ⟨isNull_false_of h1 (.inl rfl), _, _, _, ?_, preprocess_anc hpre hp, hc, validateLeaf_anc hv, ?_⟩
        · unfold decodeStep; rw [if_neg (by simp)]
        · unfold encodeStep; rw [if_neg (by simp)]
      have hzone : d'.tz = some (fieldZone utc) := by
        obtain ⟨_, e, h⟩ := C18_zone env hz n c mn mx utc hpre _ _ (by simp) false _ (ancOr_ne_nil _ _) hnat
        cases e; exact h
      have hx' : if utc then x = d' else env.astz d' .utc = .ok x := by
        cases utc
        · exact hx.1
        · exact hx
      have e1 := C18_serialize env n c mn mx utc hpre _ (by simp) d' x hx' hzone h1' h2 h3 _
        (ancOr_ne_nil (.leaf c (.datetime mn mx utc)) anc) hnat
      rw [← process_anc, h] at e1
      cases e1
      exact .text _

/-- What a leaf writes is JSON data. -/
theorem leaf_carried {env : Env} (hz : ZoneLaw env) {n : Nat} {c : Common} {k : Leaf} {v s : Val} {anc : List Str}
    (hf : Faithful env (.leaf c k) v) (hj : JsonReady env (.leaf c k) v)
    (h : process env (n + 1) (.leaf c k) v .outbound true anc = .ok s) : Carries env s s := by
  cases leaf_writes hz hf h with
  | none => exact .none
  | bool b => exact .bool b
  | text t => exact .str t
  | asis hk => rcases hk with rfl | ⟨_, _, rfl⟩ <;> exact hj
  | int i => exact .int i
  | float x mn mx hk => subst hk; exact .float (hj _ _ _ h)
  | bytes _ _ hk hn => subst hk; exact absurd hj hn

/-! ### what is carried -/

/-- A relation between what is written and what comes back: containers are carried if their parts are, tuples as lists, dicts with
texts for keys. -/
structure Carrier (C : Val → Val → Prop) (K : Val → Str → Prop) : Prop where
  none : C .none .none
  none_iff : ∀ {v w}, C v w → (v = .none ↔ w = .none)
  list : ∀ {ps : List (Val × Val)}, (∀ p ∈ ps, C p.1 p.2) → C (.list (ps.map (·.1))) (.list (ps.map (·.2)))
  tuple : ∀ {ps : List (Val × Val)}, (∀ p ∈ ps, C p.1 p.2) → C (.tuple (ps.map (·.1))) (.list (ps.map (·.2)))
  dict : ∀ {es : List ((Val × Str) × Val × Val)}, (es.map (·.1.2)).Nodup → (∀ e ∈ es, K e.1.1 e.1.2) → (∀ e ∈ es, C e.2.1 e.2.2) →
    C (.dict (es.map fun e => (e.1.1, e.2.1))) (.dict (es.map fun e => (.str e.1.2, e.2.2)))
  str : ∀ s, K (.str s) s

/-- Every value written has a counterpart, which the field reads alike. -/
def CarriesLeaf (env : Env) (C : Val → Val → Prop) (P : Field → Val → Prop) : Prop :=
  ∀ n c k v s anc, Faithful env (.leaf c k) v → P (.leaf c k) v →
    process env (n + 1) (.leaf c k) v .outbound true anc = .ok s → ∃ s', C s s' ∧ ReadsAlike env (n + 1) (.leaf c k) s s'

/-- The same for the keys of a map: their texts are read alike, and different keys have different texts. -/
def CarriesKeys (env : Env) (K : Val → Str → Prop) (P : Field → Val → Prop) : Prop :=
  ∀ n c key value req d (out : List (Val × Val)), P (.map c key value req) (.dict d) →
    (∀ kf, key = some kf → ∀ e ∈ d, Faithful env kf e.1) →
    (∀ e ∈ out, ∃ k, (∃ x, (k, x) ∈ d) ∧ ∃ a, KeyOk env n .outbound true a key k e.1) →
    ∃ t : Val → Str, ∀ e ∈ out, K e.1 (t e.1) ∧
      (∀ a k', KeyOk env n .inbound true a key e.1 k' ↔ KeyOk env n .inbound true a key (.str (t e.1)) k') ∧
      ∀ e' ∈ out, pyEq e'.1 e.1 = false → t e.1 ≠ t e'.1

/-! ### containers -/

theorem getElem?_fst {α β : Type} {ps : List (α × β)} {i : Nat} {x : α} : (ps.map (·.1))[i]? = some x ↔
    ∃ y, ps[i]? = some (x, y) := by
  rw [List.getElem?_map, Option.map_eq_some_iff]
  constructor
  · rintro ⟨⟨a, b⟩, h, rfl⟩; exact ⟨b, h⟩
  · rintro ⟨y, h⟩; exact ⟨_, h, rfl⟩

theorem getElem?_snd {α β : Type} {ps : List (α × β)} {i : Nat} {y : β} : (ps.map (·.2))[i]? = some y ↔
    ∃ x, ps[i]? = some (x, y) := by
  rw [List.getElem?_map, Option.map_eq_some_iff]
  constructor
  · rintro ⟨⟨a, b⟩, h, rfl⟩; exact ⟨a, h⟩
  · rintro ⟨y, h⟩; exact ⟨_, h, rfl⟩

theorem seq_alike {env : Env} {n : Nat} {c : Common} {item : Field} {mn mx : Option Nat} {u : Bool} (hpre : c.pre = none)
    {ps : List (Val × Val)} (h : ∀ p ∈ ps, ∀ g, resolve env item = some g → ReadsAlike env n g p.1 p.2) :
    ReadsAlike env (n + 1) (.sequence c item mn mx u) (.list (ps.map (·.1))) (.list (ps.map (·.2))) := by
  intro a w
  rw [seq_ok hpre, seq_ok hpre]
  simp only [reduceCtorEq, false_and, false_or, Val.list.injEq]
  constructor
  · rintro ⟨_, rs, rfl, rfl, h1, h2, h3, h4, h5⟩
    refine ⟨_, rs, rfl, rfl, by simpa using h1, by simpa using h2, by simpa using h3, ?_, h5⟩
    intro i x r hx hr
    obtain ⟨y, hy⟩ := getElem?_snd.1 hx
    obtain ⟨g, hg, hp⟩ := h4 i y r (getElem?_fst.2 ⟨_, hy⟩) hr
    exact ⟨g, hg, (h _ (List.mem_of_getElem? hy) g hg _ _).1 hp⟩
  · rintro ⟨_, rs, rfl, rfl, h1, h2, h3, h4, h5⟩
    refine ⟨_, rs, rfl, rfl, by simpa using h1, by simpa using h2, by simpa using h3, ?_, h5⟩
    intro i x r hx hr
    obtain ⟨y, hy⟩ := getElem?_fst.1 hx
    obtain ⟨g, hg, hp⟩ := h4 i y r (getElem?_snd.2 ⟨_, hy⟩) hr
    exact ⟨g, hg, (h _ (List.mem_of_getElem? hy) g hg _ _).2 hp⟩

theorem tup_alike {env : Env} {n : Nat} {c : Common} {fs : List Field} (hpre : c.pre = none)
    {ps : List (Val × Val)} (h : ∀ (i : Nat) f x y g, fs[i]? = some f → ps[i]? = some (x, y) → resolve env f = some g →
      ReadsAlike env n g x y) :
    ReadsAlike env (n + 1) (.tuple c fs) (.tuple (ps.map (·.1))) (.list (ps.map (·.2))) := by
  intro a w
  rw [tup_ok hpre, tup_ok hpre]
  simp only [reduceCtorEq, false_and, false_or, Val.list.injEq, Val.tuple.injEq, or_false]
  constructor
  · rintro ⟨_, rs, rfl, rfl, h1, h2, h3⟩
    refine ⟨_, rs, rfl, rfl, by simpa using h1, by simpa using h2, ?_⟩
    intro i f x hf hx
    obtain ⟨y, hy⟩ := getElem?_snd.1 hx
    obtain ⟨g, r, hg, hr, hp⟩ := h3 i f y hf (getElem?_fst.2 ⟨_, hy⟩)
    exact ⟨g, r, hg, hr, (h i f _ _ g hf hy hg _ _).1 hp⟩
  · rintro ⟨_, rs, rfl, rfl, h1, h2, h3⟩
    refine ⟨_, rs, rfl, rfl, by simpa using h1, by simpa using h2, ?_⟩
    intro i f x hf hx
    obtain ⟨y, hy⟩ := getElem?_fst.1 hx
    obtain ⟨g, r, hg, hr, hp⟩ := h3 i f y hf (getElem?_snd.2 ⟨_, hy⟩)
    exact ⟨g, r, hg, hr, (h i f _ _ g hf hy hg _ _).2 hp⟩

/-- The two dicts of a carried dict. -/
abbrev before (es : List ((Val × Str) × Val × Val)) : List (Val × Val) := es.map fun e => (e.1.1, e.2.1)
abbrev after (es : List ((Val × Str) × Val × Val)) : List (Val × Val) := es.map fun e => (.str e.1.2, e.2.2)

theorem map_alike {env : Env} {n : Nat} {c : Common} {key : Option Field} {value : Field} {req : List Val}
    (hpre : c.pre = none) {es : List ((Val × Str) × Val × Val)}
    (hk : ∀ e ∈ es, ∀ a k', KeyOk env n .inbound true a key e.1.1 k' ↔ KeyOk env n .inbound true a key (.str e.1.2) k')
    (h : ∀ e ∈ es, ∀ g, resolve env value = some g → ReadsAlike env n g e.2.1 e.2.2) :
    ReadsAlike env (n + 1) (.map c key value req) (.dict (before es)) (.dict (after es)) := by
  intro a w
  rw [map_ok hpre, map_ok hpre]
  simp only [reduceCtorEq, false_and, false_or, Val.dict.injEq]
  constructor
  · rintro ⟨_, rs, rfl, h1, h2, h3⟩
    refine ⟨_, rs, rfl, by simpa using h1, ?_, h3⟩
    intro i k v hi
    rw [List.getElem?_map, Option.map_eq_some_iff] at hi
    obtain ⟨e, he, hi⟩ := hi
    cases hi
    obtain ⟨k', r, hr, h4, h5, g, st, hg, hst, hp⟩ := h2 i e.1.1 e.2.1 (by rw [List.getElem?_map, he]; rfl)
    have hm := List.mem_of_getElem? he
    exact ⟨k', r, hr, (hk e hm _ _).1 h4, h5, g, st, hg, hst, (h e hm g hg _ _).1 hp⟩
  · rintro ⟨_, rs, rfl, h1, h2, h3⟩
    refine ⟨_, rs, rfl, by simpa using h1, ?_, h3⟩
    intro i k v hi
    rw [List.getElem?_map, Option.map_eq_some_iff] at hi
    obtain ⟨e, he, hi⟩ := hi
    cases hi
    obtain ⟨k', r, hr, h4, h5, g, st, hg, hst, hp⟩ := h2 i _ e.2.2 (by rw [List.getElem?_map, he]; rfl)
    have hm := List.mem_of_getElem? he
    exact ⟨k', r, hr, (hk e hm _ _).2 h4, h5, g, st, hg, hst, (h e hm g hg _ _).2 hp⟩

/-- The members of two dicts with the same text keys. -/
theorem given_alike {es : List ((Val × Str) × Val × Val)} (hs : ∀ e ∈ es, e.1.1 = .str e.1.2) (name : Str) :
    (given (before es) name = none ∧ given (after es) name = none) ∨
    ∃ e ∈ es, e.1.2 = name ∧ given (before es) name = some e.2.1 ∧ given (after es) name = some e.2.2 := by
  induction es with
  | nil => exact .inl ⟨rfl, rfl⟩
  | cons e r ih =>
    have he := hs e (by simp)
    by_cases hn : e.1.2 = name
    · refine .inr ⟨e, by simp, hn, ?_, ?_⟩
      · simp [given, before, he, hn]
      · simp [given, after, hn]
    · rcases ih (fun e he => hs e (by simp [he])) with ⟨h1, h2⟩ | ⟨e', he', h1, h2, h3⟩
      · refine .inl ⟨?_, ?_⟩
        · simpa [given, before, he, hn] using h1
        · simpa [given, after, hn] using h2
      · refine .inr ⟨e', by simp [he'], h1, ?_, ?_⟩
        · simpa [given, before, he, hn] using h2
        · simpa [given, after, hn] using h3

theorem slot_alike {env : Env} {n : Nat} {defn : List (Str × Field)} {es : List ((Val × Str) × Val × Val)}
    (hs : ∀ e ∈ es, e.1.1 = .str e.1.2) (hc : ∀ e ∈ es, e.2.1 = .none ↔ e.2.2 = .none)
    (h : ∀ e ∈ es, ∀ g c, Declares env defn e.1.2 g c → ReadsAlike env n g e.2.1 e.2.2) (a : List Str) (name : Str)
    (r : Option Val) :
    SlotOk env n defn (before es) .inbound true false a name r ↔ SlotOk env n defn (after es) .inbound true false a name r := by
  rcases given_alike hs name with ⟨h1, h2⟩ | ⟨e, he, rfl, h1, h2⟩
  · unfold SlotOk; rw [h1, h2]
  · unfold SlotOk
    rw [h1, h2]
    have hmiss : ∀ c x, ¬ memberMissing c (some x) .inbound false := fun c x h => by cases h.1
    have hn : e.2.1.isNone = e.2.2.isNone := by
      have := hc e he
      rw [← isNone_iff, ← isNone_iff] at this
      cases h1 : e.2.1.isNone <;> cases h2 : e.2.2.isNone <;> simp_all
    simp only [hmiss, memberInput_given, hn, not_false_eq_true, true_and]
    have key : ∀ g c, Declares env defn e.1.2 g c →
        (((if (c.ignoreNull && e.2.2.isNone) = true then (none : Option Val) else some e.2.1) = none ∧ r = none ∨
          ∃ v w, (if (c.ignoreNull && e.2.2.isNone) = true then (none : Option Val) else some e.2.1) = some v ∧ r = some w ∧
            process env n g v .inbound true (a ++ ['.' :: e.1.2]) = .ok w) ↔
        ((if (c.ignoreNull && e.2.2.isNone) = true then (none : Option Val) else some e.2.2) = none ∧ r = none ∨
          ∃ v w, (if (c.ignoreNull && e.2.2.isNone) = true then (none : Option Val) else some e.2.2) = some v ∧ r = some w ∧
            process env n g v .inbound true (a ++ ['.' :: e.1.2]) = .ok w)) := by
      intro g c hd
      split
      · simp
      · simp only [reduceCtorEq, false_and, false_or, Option.some.injEq]
        constructor
        · rintro ⟨_, w, rfl, hw, hp⟩; exact ⟨_, w, rfl, hw, (h e he g c hd _ _).1 hp⟩
        · rintro ⟨_, w, rfl, hw, hp⟩; exact ⟨_, w, rfl, hw, (h e he g c hd _ _).2 hp⟩
    constructor
    · rintro ⟨g, c, hd, hr⟩; exact ⟨g, c, hd, (key g c hd).1 hr⟩
    · rintro ⟨g, c, hd, hr⟩; exact ⟨g, c, hd, (key g c hd).2 hr⟩

theorem names_alike {es : List ((Val × Str) × Val × Val)} (hs : ∀ e ∈ es, e.1.1 = .str e.1.2) (names : List Str) :
    (∀ e ∈ before es, ∃ name ∈ names, e.1 = .str name) ↔ ∀ e ∈ after es, ∃ name ∈ names, e.1 = .str name := by
  simp only [before, after, List.forall_mem_map]
  constructor
  · intro h e he
    obtain ⟨name, hn, h⟩ := h e he
    rw [hs e he] at h
    exact ⟨name, hn, h⟩
  · intro h e he
    obtain ⟨name, hn, h⟩ := h e he
    exact ⟨name, hn, by rw [hs e he]; exact h⟩

theorem struct_alike {env : Env} {n : Nat} {c : Common} {defn : List (Str × Field)} {strict : Bool} {ko : List Str}
    (hpre : c.pre = none) (hnd : (visited defn ko).Nodup) {es : List ((Val × Str) × Val × Val)}
    (hs : ∀ e ∈ es, e.1.1 = .str e.1.2) (hc : ∀ e ∈ es, e.2.1 = .none ↔ e.2.2 = .none)
    (h : ∀ e ∈ es, ∀ g c, Declares env defn e.1.2 g c → ReadsAlike env n g e.2.1 e.2.2) :
    ReadsAlike env (n + 1) (.structure c defn strict ko) (.dict (before es)) (.dict (after es)) := by
  intro a w
  rw [struct_ok hpre hnd, struct_ok hpre hnd]
  simp only [reduceCtorEq, false_and, false_or, Val.dict.injEq]
  constructor
  · rintro ⟨_, rfl, h1, slots, h2, h3, h4⟩
    exact ⟨_, rfl, fun hst => (names_alike hs _).1 (h1 hst), slots, h2,
      fun x hx => (slot_alike hs hc h _ _ _).1 (h3 x hx), h4⟩
  · rintro ⟨_, rfl, h1, slots, h2, h3, h4⟩
    exact ⟨_, rfl, fun hst => (names_alike hs _).2 (h1 hst), slots, h2,
      fun x hx => (slot_alike hs hc h _ _ _).2 (h3 x hx), h4⟩

theorem poly_alike {env : Env} {n : Nat} {c : Common} {disc : Field} {vs : List (Val × List (Str × Field))} {strict : Bool}
    (hpre : c.pre = none) (hnd : ∀ e ∈ vs, (e.2.map (·.1)).Nodup) {es : List ((Val × Str) × Val × Val)}
    (hs : ∀ e ∈ es, e.1.1 = .str e.1.2) (hc : ∀ e ∈ es, e.2.1 = .none ↔ e.2.2 = .none)
    (hd : ∀ e ∈ es, e.1.2 = disc.name.getD [] → ReadsAlike env n disc e.2.1 e.2.2)
    (h : ∀ e ∈ es, e.1.2 = disc.name.getD [] → ∀ a id defn, process env n disc e.2.1 .inbound true a = .ok id →
      variantFor vs id = some defn →
      ∀ e ∈ es, ∀ g c, Declares env defn e.1.2 g c → ReadsAlike env n g e.2.1 e.2.2) :
    ReadsAlike env (n + 1) (.poly c disc vs strict []) (.dict (before es)) (.dict (after es)) := by
  intro a w
  rw [poly_ok hpre hnd, poly_ok hpre hnd]
  simp only [reduceCtorEq, false_and, false_or, Val.dict.injEq]
  constructor
  · rintro ⟨_, raw, id, defn, rfl, hg, hnn, hid, hh, hv, hne, h1, slots, h2, h3, h4⟩
    rcases given_alike hs (disc.name.getD []) with ⟨g1, g2⟩ | ⟨e, he, hen, g1, g2⟩
    · rw [g1] at hg; cases hg
    · rw [g1] at hg; cases hg
      exact ⟨_, e.2.2, id, defn, rfl, g2, fun h => hnn ((hc e he).2 h), (hd e he hen _ _).1 hid, hh, hv, hne,
        fun hst => (names_alike hs _).1 (h1 hst), slots, h2,
        fun x hx => (slot_alike hs hc (h e he hen _ _ _ hid hv) _ _ _).1 (h3 x hx), h4⟩
  · rintro ⟨_, raw, id, defn, rfl, hg, hnn, hid, hh, hv, hne, h1, slots, h2, h3, h4⟩
    rcases given_alike hs (disc.name.getD []) with ⟨g1, g2⟩ | ⟨e, he, hen, g1, g2⟩
    · rw [g2] at hg; cases hg
    · rw [g2] at hg; cases hg
      have hid' := (hd e he hen _ _).2 hid
      exact ⟨_, e.2.1, id, defn, rfl, g1, fun h => hnn ((hc e he).1 h), hid', hh, hv, hne,
        fun hst => (names_alike hs _).2 (h1 hst), slots, h2,
        fun x hx => (slot_alike hs hc (h e he hen _ _ _ hid' hv) _ _ _).2 (h3 x hx), h4⟩

/-! ### keys -/

theorem intStr_inj {i j : Int} (h : intStr i = intStr j) : i = j := by
  have h1 := parseInt_intStr ⟨fun _ => false, fun _ => false, fun _ => none, fun c => [c]⟩ i
  rw [h, parseInt_intStr] at h1
  cases h1; rfl

/-- An Integer field reads the text of an integer as the integer. -/
theorem integer_alike {env : Env} {n : Nat} {c : Common} {mn mx : Option Int} (hpre : c.pre = none) (i : Int) :
    ReadsAlike env n (.leaf c (.integer mn mx)) (.int i) (.str (intStr i)) := by
  intro a w
  cases n with
  | zero => exact ⟨fun h => (by cases h), fun h => (by cases h)⟩
  | succ n =>
    show processLeaf env c (.integer mn mx) _ .inbound true a = .ok w ↔ processLeaf env c (.integer mn mx) _ .inbound true a = .ok w
    rw [processLeaf_ok, processLeaf_ok]
    have e1 : ∀ x : Val, x ≠ .none → isNull (.leaf c (.integer mn mx)) x (ancOr (.leaf c (.integer mn mx)) a) = .ok false :=
      fun x hx => isNull_notNull (NotNull.mk' hx (by simp))
    rw [e1 _ (by simp), e1 _ (by simp)]
    have e2 : decodeStep env (.leaf c (.integer mn mx)) (.integer mn mx) (.str (intStr i)) .inbound true (ancOr (.leaf c (.integer mn mx)) a) =
        decodeStep env (.leaf c (.integer mn mx)) (.integer mn mx) (.int i) .inbound true (ancOr (.leaf c (.integer mn mx)) a) := by
      simp [decodeStep, unserializeLeaf, parseInt_intStr, toInt]
    rw [e2]

theorem nodup_slots {slots : List (Str × Option Val)} (h : (slots.map (·.1)).Nodup) :
    (slots.filterMap fun x => x.2.map fun _ => x.1).Nodup := by
  induction slots with
  | nil => simp
  | cons x r ih =>
    rw [List.map_cons, List.nodup_cons] at h
    rw [List.filterMap_cons]
    cases hx : x.2 with
    | none => simpa [hx] using ih h.2
    | some v =>
      simp only [Option.map_some, List.nodup_cons]
      refine ⟨?_, ih h.2⟩
      intro hm
      obtain ⟨y, hy, e⟩ := List.mem_filterMap.1 hm
      apply h.1
      cases hy2 : y.2 with
      | none => rw [hy2] at e; cases e
      | some v => rw [hy2] at e; simp only [Option.map_some, Option.some.injEq] at e; exact e ▸ List.mem_map.2 ⟨y, hy, rfl⟩

/-- The entries of a written structure, carried. -/
theorem slots_carried {C : Val → Val → Prop} {K : Val → Str → Prop} (hC : Carrier C K) {env : Env} {n : Nat} {defn : List (Str × Field)} {slots : List (Str × Option Val)}
    (hnd : (slots.map (·.1)).Nodup)
    (h : ∀ x ∈ slots, ∀ r, x.2 = some r → ∃ r', C r r' ∧ ∀ g c, Declares env defn x.1 g c → ReadsAlike env n g r r') :
    ∃ es : List ((Val × Str) × Val × Val), before es = slotDict slots ∧ C (.dict (before es)) (.dict (after es)) ∧
      (∀ e ∈ es, e.1.1 = .str e.1.2) ∧ (∀ e ∈ es, e.2.1 = .none ↔ e.2.2 = .none) ∧
      ∀ e ∈ es, ∀ g c, Declares env defn e.1.2 g c → ReadsAlike env n g e.2.1 e.2.2 := by
  have : ∃ es : List ((Val × Str) × Val × Val), before es = slotDict slots ∧
      es.map (·.1.2) = (slots.filterMap fun x => x.2.map fun _ => x.1) ∧
      (∀ e ∈ es, e.1.1 = .str e.1.2) ∧ (∀ e ∈ es, C e.2.1 e.2.2) ∧
      ∀ e ∈ es, ∀ g c, Declares env defn e.1.2 g c → ReadsAlike env n g e.2.1 e.2.2 := by
    clear hnd
    induction slots with
    | nil => exact ⟨[], rfl, rfl, by simp, by simp, by simp⟩
    | cons x r ih =>
      obtain ⟨es, h1, h2, h3, h4, h5⟩ := ih (fun x hx => h x (by simp [hx]))
      cases hx : x.2 with
      | none =>
        refine ⟨es, ?_, ?_, h3, h4, h5⟩
        · rw [h1]; simp [slotDict, hx]
        · rw [h2]; simp [hx]
      | some v =>
        obtain ⟨v', hc, ha⟩ := h x (by simp) v hx
        refine ⟨((.str x.1, x.1), v, v') :: es, ?_, ?_, ?_, ?_, ?_⟩
        · simp only [before, List.map_cons] at h1 ⊢
          rw [h1]; simp [slotDict, hx]
        · rw [List.map_cons, h2]; simp [hx]
        · simpa using h3
        · simpa using ⟨hc, fun a b c d => h4 ((a, b), c, d)⟩
        · intro e he
          rcases List.mem_cons.1 he with rfl | he
          · exact ha
          · exact h5 e he
  obtain ⟨es, h1, h2, h3, h4, h5⟩ := this
  exact ⟨es, h1, hC.dict (h2 ▸ nodup_slots hnd) (fun e he => h3 e he ▸ hC.str _) h4, h3, fun e he => hC.none_iff (h4 e he), h5⟩

theorem slot_carried {C : Val → Val → Prop} {env : Env} {n : Nat} {defn : List (Str × Field)} {d : List (Val × Val)} {anc : List Str}
    {slots : List (Str × Option Val)}
    (ih : ∀ name g c x, Declares env defn name g c → memberInput c (given d name) .outbound false = some x →
      ∀ s anc, process env n g x .outbound true anc = .ok s → ∃ s', C s s' ∧ ReadsAlike env n g s s')
    (h : ∀ x ∈ slots, SlotOk env n defn d .outbound true false anc x.1 x.2) :
    ∀ x ∈ slots, ∀ r, x.2 = some r → ∃ r', C r r' ∧ ∀ g c, Declares env defn x.1 g c → ReadsAlike env n g r r' := by
  intro x hx r hr
  obtain ⟨g, c, hd, _, ⟨_, h⟩ | ⟨v, w, hin, hw, hp⟩⟩ := h x hx
  · rw [hr] at h; cases h
  · rw [hr] at hw; cases hw
    obtain ⟨s', h1, h2⟩ := ih _ g c v hd hin _ _ hp
    refine ⟨s', h1, ?_⟩
    rintro g' c' ⟨f, e1, e2, e3⟩
    obtain ⟨f', e1', e2', e3'⟩ := hd
    rw [e1] at e1'; cases e1'
    rw [e2] at e2'; cases e2'
    exact h2

theorem nodup_slotDict {slots : List (Str × Option Val)} (h : (slots.map (·.1)).Nodup) : ((slotDict slots).map (·.1)).Nodup := by
  have : (slotDict slots).map (·.1) = (slots.filterMap fun x => x.2.map fun _ => x.1).map Val.str := by
    clear h
    induction slots with
    | nil => rfl
    | cons x r ih =>
      unfold slotDict at ih ⊢
      cases hx : x.2 <;> simp [hx, ih]
  rw [this]
  exact List.pairwise_map.2 ((nodup_slots h).imp (fun hne he => hne (Val.str.inj he)))

theorem nodup_of_before {es : List ((Val × Str) × Val × Val)} (hs : ∀ e ∈ es, e.1.1 = .str e.1.2)
    (h : ((before es).map (·.1)).Nodup) : (es.map (·.1.2)).Nodup := by
  have : (before es).map (·.1) = (es.map (·.1.2)).map Val.str := by
    rw [before, List.map_map, List.map_map]
    exact List.map_congr_left hs
  rw [this] at h
  exact (List.pairwise_map.1 h).imp (fun hne he => hne (congrArg _ he))

theorem eq_of_nodup_map {α β : Type} {f : α → β} {l : List α} (h : (l.map f).Nodup) {a b : α} (ha : a ∈ l) (hb : b ∈ l)
    (he : f a = f b) : a = b := by
  induction l with
  | nil => cases ha
  | cons x r ih =>
    rw [List.map_cons, List.nodup_cons] at h
    rcases List.mem_cons.1 ha with ha | ha <;> rcases List.mem_cons.1 hb with hb | hb
    · rw [ha, hb]
    · exact absurd (List.mem_map.2 ⟨b, hb, by rw [← he, ha]⟩) h.1
    · exact absurd (List.mem_map.2 ⟨a, ha, by rw [he, hb]⟩) h.1
    · exact ih h.2 ha hb

/-- What a field writes is carried, and the field reads alike what comes back. -/
theorem carried_by {C : Val → Val → Prop} {K : Val → Str → Prop} (hC : Carrier C K) {env : Env} {P : Field → Val → Prop}
    (hL : CarriesLeaf env C P) (hK : CarriesKeys env K P)
    (hU : ∀ c fs v, P (.union c fs) v → v ≠ .none → CarriedApart env C fs v) (hz : ZoneLaw env) {n : Nat} {f : Field} {v s : Val} {anc : List Str}
    (hf : ∀ g w, Involves env .outbound f v g w → Faithful env g w)
    (hj : ∀ g w, Involves env .outbound f v g w → P g w)
    (h : process env n f v .outbound true anc = .ok s) : ∃ s', C s s' ∧ ReadsAlike env n f s s' := by
  induction n generalizing f v s anc with
  | zero => cases h
  | succ n ih =>
    obtain ⟨hset, hfv⟩ := hf f v .here
    have hjv := hj f v .here
    have ih' : ∀ g x, Calls env .outbound false f v g x → ∀ s anc, process env n g x .outbound true anc = .ok s →
        ∃ s', C s s' ∧ ReadsAlike env n g s s' :=
      fun g x hc s anc h => ih (fun g' w' hi => hf g' w' (.call hc hi)) (fun g' w' hi => hj g' w' (.call hc hi)) h
    cases f with
    | undef s => cases h
    | union c fs =>
      rcases union_ok.1 h with ⟨rfl, rfl, _⟩ | ⟨hv, pre, g, h⟩
      · exact ⟨.none, hC.none, fun _ _ => Iff.rfl⟩
      · have hcar := hU c fs v hjv hv
        obtain ⟨hs, hw⟩ := hfv hv _ _ _ _ _ h
        have hpick := h
        obtain ⟨hg, _, hp⟩ := h
        have hcall : Calls env .outbound false (.union c fs) v g v := by
          obtain ⟨f, post, e, hg⟩ := hg
          exact .union (e ▸ by simp) hg
        obtain ⟨s', hc, hr⟩ := ih' g v hcall _ _ hp
        obtain ⟨hs', hrej⟩ := hcar _ _ _ _ _ _ hpick hc
        refine ⟨s', hc, fun a w => ?_⟩
        obtain ⟨⟨w', h1⟩, _, h3⟩ := hw (ancOr (.union c fs) a)
        have h4 := (C03_serialize_unserialize env hz n g v s _ (fun g' w' hi => hf g' w' (.call hcall hi)) hp
          (ancOr (.union c fs) a) (ancOr (.union c fs) a) w').2 h1
        rw [union_picked hs ⟨hg, h3, h4⟩, union_picked hs' ⟨hg, hrej _, (hr _ _).1 h4⟩]
    | leaf c k => exact hL _ _ _ _ _ _ ⟨hset, hfv⟩ hjv h
    | sequence c item mn mx u =>
      obtain ⟨hpre, -⟩ := hset.1 c rfl
      have hci : containerInput env c v = some v := by unfold containerInput; rw [hpre]
      rcases (seq_ok hpre).1 h with ⟨rfl, rfl, _⟩ | ⟨l, rs, rfl, rfl, hlen, _, _, h3, _⟩
      · exact ⟨.none, hC.none, fun _ _ => Iff.rfl⟩
      · obtain ⟨ps, rfl, hps⟩ := choose_pairs (l := rs)
          (Q := fun r r' => C r r' ∧ ∀ g, resolve env item = some g → ReadsAlike env n g r r') (by
            intro r hr
            obtain ⟨i, hi, rfl⟩ := List.getElem_of_mem hr
            have hil : i < l.length := hlen ▸ hi
            obtain ⟨g, hg, hp⟩ := h3 i _ _ (List.getElem?_eq_getElem hil) (List.getElem?_eq_getElem hi)
            obtain ⟨s', h1, h2⟩ := ih' g _ (.item hci (List.getElem_mem hil) hg) _ _ hp
            refine ⟨s', h1, fun g' hg' => ?_⟩
            rw [hg] at hg'; cases hg'; exact h2)
        exact ⟨_, hC.list (fun p hp => (hps p hp).1), seq_alike hpre (fun p hp => (hps p hp).2)⟩
    | tuple c fs =>
      obtain ⟨hpre, -⟩ := hset.1 c rfl
      have hci : containerInput env c v = some v := by unfold containerInput; rw [hpre]
      rcases (tup_ok hpre).1 h with ⟨rfl, rfl, _⟩ | ⟨l, rs, hl, rfl, h1, h2, h3⟩
      · exact ⟨.none, hC.none, fun _ _ => Iff.rfl⟩
      · obtain ⟨ps, hmap, hps⟩ := choose_pairs (l := fs.zip rs)
          (Q := fun p r' => C p.2 r' ∧ ∀ g, resolve env p.1 = some g → ReadsAlike env n g p.2 r') (by
            intro p hp
            obtain ⟨i, hi, rfl⟩ := List.getElem_of_mem hp
            have hif : i < fs.length := by simp at hi; omega
            have hir : i < rs.length := by simp at hi; omega
            have hil : i < l.length := by omega
            rw [List.getElem_zip]
            obtain ⟨g, r, hg, hr, hp⟩ := h3 i _ _ (List.getElem?_eq_getElem hif) (List.getElem?_eq_getElem hil)
            rw [List.getElem?_eq_getElem hir] at hr; cases hr
            have hcall : Calls env .outbound false (.tuple c fs) v g l[i] := by
              refine .tuple hci hl (List.mem_of_getElem? (i := i) (a := (fs[i], l[i])) ?_) hg
              rw [List.getElem?_zip_eq_some]
              exact ⟨List.getElem?_eq_getElem hif, List.getElem?_eq_getElem hil⟩
            obtain ⟨s', h1, h2⟩ := ih' g _ hcall _ _ hp
            refine ⟨s', h1, fun g' hg' => ?_⟩
            rw [hg] at hg'; cases hg'; exact h2)
        have hrs : rs = (ps.map fun p => (p.1.2, p.2)).map (·.1) := by
          rw [List.map_map]
          have : rs = (fs.zip rs).map (·.2) := by rw [List.map_snd_zip]; omega
          rw [this, ← hmap, List.map_map]; rfl
        refine ⟨.list ((ps.map fun p => (p.1.2, p.2)).map (·.2)), ?_, ?_⟩
        · rw [hrs]
          refine hC.tuple ?_
          intro p hp
          obtain ⟨q, hq, rfl⟩ := List.mem_map.1 hp
          exact (hps q hq).1
        · rw [hrs]
          refine tup_alike hpre ?_
          intro i f x y g hfi hxy hg
          rw [List.getElem?_map, Option.map_eq_some_iff] at hxy
          obtain ⟨q, hq, e⟩ := hxy
          cases e
          have hz' : (fs.zip rs)[i]? = some q.1 := by rw [← hmap, List.getElem?_map, hq]; rfl
          rw [List.getElem?_zip_eq_some] at hz'
          rw [hfi] at hz'
          have := hz'.1
          cases this
          exact (hps q (List.mem_of_getElem? hq)).2 g hg
    | map c key value req =>
      obtain ⟨hpre, -⟩ := hset.1 c rfl
      have hci : containerInput env c v = some v := by unfold containerInput; rw [hpre]
      rcases (map_ok hpre).1 h with ⟨rfl, rfl, _⟩ | ⟨d, es, rfl, hlen, hes, out, rfl, hout, hreq⟩
      · exact ⟨.none, hC.none, fun _ _ => Iff.rfl⟩
      · have hd := hfv d rfl
        have hpw : es.Pairwise fun a b => pyEq b.1 a.1 = false := by
          rw [List.pairwise_iff_getElem] at hd ⊢
          intro i j hi hj hij
          obtain ⟨k1, r1, e1, o1, _⟩ := hes i d[i].1 d[i].2 (List.getElem?_eq_getElem (by omega))
          obtain ⟨k2, r2, e2, o2, _⟩ := hes j d[j].1 d[j].2 (List.getElem?_eq_getElem (by omega))
          rw [List.getElem?_eq_getElem hi] at e1
          rw [List.getElem?_eq_getElem hj] at e2
          have e1 := Option.some.inj e1
          have e2 := Option.some.inj e2
          rw [e1, e2]
          exact hd i j (by omega) (by omega) hij n .outbound true _ _ _ _ (.inl ⟨rfl, rfl⟩) o1 o2
        rw [foldl_dictSet_new es [] hpw (by simp), List.nil_append] at hout
        subst hout
        have hent : ∀ e ∈ out, ∃ k, (∃ x, (k, x) ∈ d) ∧ (∃ a, KeyOk env n .outbound true a key k e.1) ∧
            ∃ o', C e.2 o' ∧ ∀ g, resolve env value = some g → ReadsAlike env n g e.2 o' := by
          intro e he
          obtain ⟨i, hi, rfl⟩ := List.getElem_of_mem he
          have hid : i < d.length := hlen ▸ hi
          obtain ⟨k', r, e1, hk, _, g, st, hg, hst, hp⟩ := hes i d[i].1 d[i].2 (List.getElem?_eq_getElem hid)
          rw [List.getElem?_eq_getElem hi] at e1
          have e1 := Option.some.inj e1
          obtain ⟨s', h1, h2⟩ := ih' g _ (.value hci (List.getElem_mem hid) hg) _ _ hp
          refine ⟨d[i].1, ⟨_, List.getElem_mem hid⟩, ⟨_, by rw [e1]; exact hk⟩, s', by rw [e1]; exact h1, fun g' hg' => ?_⟩
          rw [hg] at hg'; cases hg'; rw [e1]; exact h2
        -- the texts of the keys
        have hkeys : ∃ t : Val → Str, ∀ e ∈ out, K e.1 (t e.1) ∧
            (∀ a k', KeyOk env n .inbound true a key e.1 k' ↔ KeyOk env n .inbound true a key (.str (t e.1)) k') ∧
            ∀ e' ∈ out, pyEq e'.1 e.1 = false → t e.1 ≠ t e'.1 := by
          exact hK n c key value req d out hjv
            (fun kf hkf e he => by subst hkf; exact hf _ _ (.call (.key hci he) .here))
            fun e he => (hent e he).imp fun _ h => ⟨h.1, h.2.1⟩
        obtain ⟨t, ht⟩ := hkeys
        obtain ⟨ps, hmap, hps⟩ := choose_pairs (l := out)
          (Q := fun e o' => C e.2 o' ∧ ∀ g, resolve env value = some g → ReadsAlike env n g e.2 o')
          (fun e he => (hent e he).elim fun _ h => h.2.2)
        have hmem : ∀ p ∈ ps, p.1 ∈ out := fun p hp => hmap ▸ List.mem_map.2 ⟨p, hp, rfl⟩
        have hb : out = before (ps.map fun p => ((p.1.1, t p.1.1), p.1.2, p.2)) := by
          rw [before, List.map_map, ← hmap]
          rfl
        refine ⟨.dict (after (ps.map fun p => ((p.1.1, t p.1.1), p.1.2, p.2))), ?_, ?_⟩
        · rw [hb]
          refine hC.dict ?_ ?_ ?_
          · rw [List.map_map]
            have : (fun p : (Val × Val) × Val => t p.1.1) = (fun e : Val × Val => t e.1) ∘ fun p : (Val × Val) × Val => p.1 := rfl
            show (ps.map fun p => t p.1.1).Nodup
            rw [this, ← List.map_map, hmap]
            refine List.pairwise_map.2 ?_
            refine List.Pairwise.imp_of_mem ?_ hpw
            intro a b ha hb hab
            exact (ht a ha).2.2 b hb hab
          · intro e he
            obtain ⟨p, hp, rfl⟩ := List.mem_map.1 he
            exact (ht p.1 (hmem p hp)).1
          · intro e he
            obtain ⟨p, hp, rfl⟩ := List.mem_map.1 he
            exact (hps p hp).1
        · rw [hb]
          refine map_alike hpre ?_ ?_
          · intro e he
            obtain ⟨p, hp, rfl⟩ := List.mem_map.1 he
            exact (ht p.1 (hmem p hp)).2.1
          · intro e he
            obtain ⟨p, hp, rfl⟩ := List.mem_map.1 he
            exact (hps p hp).2
    | «structure» c defn strict ko =>
      obtain ⟨hpre, -⟩ := hset.1 c rfl
      have hci : containerInput env c v = some v := by unfold containerInput; rw [hpre]
      have hnd : (visited defn ko).Nodup := hset.2
      rcases (struct_ok hpre hnd).1 h with ⟨rfl, rfl, _⟩ | ⟨d, rfl, hst, slots, h1, h2, rfl⟩
      · exact ⟨.none, hC.none, fun _ _ => Iff.rfl⟩
      · have hcall : ∀ name g c' x, Declares env defn name g c' → memberInput c' (given d name) .outbound false = some x →
            Calls env .outbound false (.structure c defn strict ko) (.dict d) g x := by
          rintro name g c' x ⟨f, hl, hg, hc'⟩ hin
          exact .member hci (lookup_mem hl) hg hc' (.inl rfl) hin
        obtain ⟨es, e1, e2, e3, e4, e5⟩ := slots_carried hC (n := n) (defn := defn) (h1 ▸ hnd)
          (slot_carried (fun name g c' x hd hin => ih' g x (hcall name g c' x hd hin)) h2)
        exact ⟨_, e1 ▸ e2, e1 ▸ struct_alike hpre hnd e3 e4 e5⟩
    | poly c disc vs strict ko =>
      obtain ⟨hpre, -⟩ := hset.1 c rfl
      have hci : containerInput env c v = some v := by unfold containerInput; rw [hpre]
      obtain ⟨rfl, hdisc, hvs⟩ := hset.2
      have hnds : ∀ e ∈ vs, (e.2.map (·.1)).Nodup := fun e he => (hvs e.1 e.2 he).2.1
      rcases (poly_ok hpre hnds).1 h with ⟨rfl, rfl, _⟩ | ⟨d, raw, id, defn, rfl, hraw, hnn, hid, hh, hv, hne, hst, slots, h1, h2, rfl⟩
      · exact ⟨.none, hC.none, fun _ _ => Iff.rfl⟩
      · obtain ⟨hmf, hvar⟩ := hfv d rfl
        obtain ⟨e, he, hde⟩ : ∃ e, vs.find? (fun e => pyEq id e.1) = some e ∧ e.2 = defn := by
          have hv' := hv
          unfold variantFor at hv'
          rwa [Option.map_eq_some_iff] at hv'
        obtain ⟨i, defn'⟩ := e
        simp only at hde
        subst hde
        have hmem : (i, defn') ∈ vs := List.mem_of_find?_eq_some he
        obtain ⟨hi, hnd, m, hlk, htag⟩ := hvs i defn' hmem
        have hdm : disc.name.getD [] ∈ defn'.map (·.1) := List.mem_map.2 ⟨_, lookup_mem hlk, rfl⟩
        obtain ⟨hslot, hmp⟩ : given (slotDict slots) (disc.name.getD []) = some id ∧ ∃ cm a, m.common? = some cm ∧
            process env n m raw .outbound true a = .ok id ∧ memberInput cm (given d (disc.name.getD [])) .outbound false = some raw := by
          have hdm' := hdm
          rw [← h1] at hdm'
          obtain ⟨x, hx, hxn⟩ := List.mem_map.1 hdm'
          have hg := given_slotDict (h1 ▸ hnd) hx
          rw [hxn] at hg
          rw [hg]
          obtain ⟨g, c', ⟨f, hl, hres, hc'⟩, _, hcase⟩ := h2 x hx
          rw [hxn, hlk] at hl
          cases hl
          rw [tag_resolve htag hdisc] at hres
          cases hres
          rw [hxn, hraw, memberInput_given] at hcase
          have : raw.isNone = false := by
            cases hr : raw.isNone
            · rfl
            · exact absurd ((isNone_iff _).1 hr) hnn
          rw [this] at hcase
          simp only [Bool.and_false, Bool.false_eq_true, if_false, reduceCtorEq, false_and, false_or, Option.some.injEq] at hcase
          obtain ⟨v, w, rfl, hw, hp⟩ := hcase
          have e := tag_same htag hid hp
          subst e
          refine ⟨hw, c', _, hc', hp, ?_⟩
          rw [hraw, memberInput_given, this]
          simp
        have hcall : ∀ name g c' x, Declares env defn' name g c' → memberInput c' (given d name) .outbound false = some x →
            Calls env .outbound false (.poly c disc vs strict []) (.dict d) g x := by
          rintro name g c' x ⟨f, hl, hg, hc'⟩ hin
          exact .variant hci hmem (lookup_mem hl) hg hc' (.inl rfl) hin
        obtain ⟨es, e1, e2, e3, e4, e5⟩ := slots_carried hC (n := n) (defn := defn') (h1 ▸ hnd)
          (slot_carried (fun name g c' x hd hin => ih' g x (hcall name g c' x hd hin)) h2)
        obtain ⟨cm, am, hcm, hmp, hmi⟩ := hmp
        have hdd : Declares env defn' (disc.name.getD []) m cm := ⟨m, hlk, tag_resolve htag hdisc, hcm⟩
        have hone : ∀ e ∈ es, e.1.2 = disc.name.getD [] → e.2.1 = id := by
          intro e he hen
          have hnd' : (es.map (·.1.2)).Nodup := nodup_of_before e3 (e1 ▸ nodup_slotDict (h1 ▸ hnd))
          rcases given_alike e3 (disc.name.getD []) with ⟨g1, _⟩ | ⟨e', he', hen', g1, _⟩
          · rw [e1, hslot] at g1; cases g1
          · rw [e1, hslot] at g1
            have : e = e' := eq_of_nodup_map hnd' he he' (hen.trans hen'.symm)
            rw [this]; exact (Option.some.inj g1).symm
        refine ⟨_, e1 ▸ e2, e1 ▸ poly_alike hpre hnds e3 e4 ?_ ?_⟩
        · intro e he hen
          have hm := e5 e he m cm (hen ▸ hdd)
          rw [hone e he hen] at hm ⊢
          obtain ⟨w, hw⟩ : ∃ w, m = disc ∨ ∀ a, process env n m id .inbound true a = .ok w := by
            rcases htag with rfl | ⟨c0, k, x, a0, rfl, hc0, rfl⟩
            · exact ⟨.none, .inl rfl⟩
            · obtain ⟨w, hw⟩ := leaf_accepts [] hmp
              exact ⟨w, .inr fun a => (C03_serialize_unserialize env hz n _ raw id _
                (fun g' w' hi => hf g' w' (.call (hcall _ _ _ _ hdd hmi) hi)) hmp a [] w).2 hw⟩
          rcases hw with rfl | hw
          · exact hm
          · intro a w'
            rw [tag_up htag (hw a), tag_up htag ((hm a w).1 (hw a))]
        intro e he hen a id' defn2 hid' hv2
        rw [hone e he hen] at hid'
        have hid2 := (C03_serialize_unserialize env hz n disc raw id _
          (fun g' w' hi => hf g' w' (.call (.disc hci hraw) hi)) hid a a id').1 hid'
        have e := hvar raw n _ _ _ _ hraw hid hid2
        rw [hv, hv2] at e
        cases e
        exact e5

theorem json_carrier (env : Env) : Carrier (Carries env) (KeyText env) :=
  ⟨.none, carries_none, .list, .tuple, .dict, .str⟩

theorem json_keys (env : Env) : CarriesKeys env (KeyText env) (JsonReady env) := by
  intro n c key value req d out hjv hfk hent
  rcases hjv d rfl with hstr | ⟨⟨ck, kmn, kmx, rfl⟩, hint⟩
  · have hs : ∀ e ∈ out, ∃ s, e.1 = .str s := by
      intro e he
      obtain ⟨k, ⟨x, hx⟩, a, hk⟩ := hent e he
      exact hstr (k, x) hx _ _ _ hk
    refine ⟨fun v => match v with | .str s => s | _ => [], fun e he => ?_⟩
    obtain ⟨s, hs1⟩ := hs e he
    refine ⟨by rw [hs1]; exact .str s, by rw [hs1]; exact fun _ _ => Iff.rfl, fun e' he' hne => ?_⟩
    obtain ⟨s', hs2⟩ := hs e' he'
    rw [hs1, hs2] at hne ⊢
    rintro rfl
    simp [pyEq] at hne
  · have hs : ∀ e ∈ out, ∃ i, e.1 = .int i := by
      intro e he
      obtain ⟨k, ⟨x, hx⟩, a, hk⟩ := hent e he
      exact hint (k, x) hx _ _ _ hk
    refine ⟨fun v => match v with | .int i => intStr i | _ => [], fun e he => ?_⟩
    obtain ⟨s, hs1⟩ := hs e he
    obtain ⟨k, ⟨x, hx⟩, _⟩ := hent e he
    have hpk : ck.pre = none := ((hfk _ rfl _ hx).1.1 ck rfl).1
    refine ⟨by rw [hs1]; exact .int s, ?_, fun e' he' hne => ?_⟩
    · rw [hs1]
      intro a k'
      constructor
      · intro hk
        cases hk with
        | field hst hp => cases hst; exact .field rfl ((integer_alike hpk s _ _).1 hp)
      · intro hk
        cases hk with
        | field hst hp => cases hst; exact .field rfl ((integer_alike hpk s _ _).2 hp)
    · obtain ⟨s', hs2⟩ := hs e' he'
      rw [hs1, hs2] at hne ⊢
      intro heq
      have := intStr_inj heq
      subst this
      simp [pyEq, numOf, numEq] at hne

/-- What a field writes is carried by JSON, and the field reads alike what comes back. -/
theorem carried {env : Env} (hz : ZoneLaw env) {n : Nat} {f : Field} {v s : Val} {anc : List Str}
    (hf : ∀ g w, Involves env .outbound f v g w → Faithful env g w)
    (hj : ∀ g w, Involves env .outbound f v g w → JsonReady env g w)
    (h : process env n f v .outbound true anc = .ok s) : ∃ s', Carries env s s' ∧ ReadsAlike env n f s s' :=
  carried_by (json_carrier env) (fun _ _ _ _ _ _ hf hj h => ⟨_, leaf_carried hz hf hj h, fun _ _ => Iff.rfl⟩) (json_keys env)
    (fun _ _ _ h => h) hz hf hj h

/-- C57. If `v` can be serialized, it can be serialized to JSON, and reading the document back does what native inbound
processing of `v` does: it gives the same value or, when that is rejected, is rejected. -/
theorem C57_json (env : Env) (hz : ZoneLaw env) (n : Nat) (f : Field) (v s : Val) (anc : List Str)
    (hf : ∀ g w, Involves env .outbound f v g w → Faithful env g w)
    (hj : ∀ g w, Involves env .outbound f v g w → JsonReady env g w)
    (h : process env n f v .outbound true anc = .ok s) :
    ∃ text, serializeTo env n f (jsonOps env) v anc = .ok text ∧
      ∀ a w, unserializeFrom env n f (jsonOps env) text a = .ok w ↔ process env n f v .inbound false a = .ok w := by
  obtain ⟨s', h1, h2⟩ := carried hz hf hj h
  obtain ⟨t, h3, h4⟩ := C56_round_trip env h1
  refine ⟨t, by simp only [serializeTo, h, except_bind_ok]; exact h3, fun a w => ?_⟩
  rw [← C03_serialize_unserialize env hz n f v s anc hf h a a w, h2 a w]
  simp only [unserializeFrom, jsonOps, h4, except_bind_ok]

/-- C57. A value accepted once survives being written to JSON and read back unchanged. -/
theorem C57_round_trip (env : Env) (hz : ZoneLaw env) (n : Nat) (f : Field) (hs : Everywhere env (Settled env) f)
    (u v s : Val) (ser : Bool) (a0 a1 a2 : List Str) (hv : process env n f u .inbound ser a0 = .ok v)
    (hf : ∀ g w, Involves env .outbound f v g w → Faithful env g w)
    (hj : ∀ g w, Involves env .outbound f v g w → JsonReady env g w)
    (h : process env n f v .outbound true a1 = .ok s) :
    ∃ text, serializeTo env n f (jsonOps env) v a1 = .ok text ∧ unserializeFrom env n f (jsonOps env) text a2 = .ok v := by
  obtain ⟨t, h1, h2⟩ := C57_json env hz n f v s a1 hf hj h
  exact ⟨t, h1, (h2 a2 v).2 (C02_idempotent env hz n f hs u v ser a0 a2 hv)⟩

/-- C57. What is rejected is not written: `serialize` fails as processing does. -/
theorem C57_rejected (env : Env) (n : Nat) (f : Field) (ops : FormatOps) (v : Val) (anc : List Str) (e : Exn)
    (h : process env n f v .outbound true anc = .error e) : serializeTo env n f ops v anc = .error e := by
  simp only [serializeTo, h]; rfl

/-- C57. A Binary field serializes to bytes, which have no JSON text: whatever is not None fails with a TypeError. -/
theorem C57_binary (env : Env) (n : Nat) (c : Common) (hpre : c.pre = none) (mn mx : Option Nat) (v s : Val) (hv : v ≠ .none)
    (anc : List Str) (h : process env (n + 1) (.leaf c (.binary mn mx)) v .outbound true anc = .ok s) :
    serializeTo env (n + 1) (.leaf c (.binary mn mx)) (jsonOps env) v anc = .error (.py .typeError) := by
  have h' : processLeaf env c (.binary mn mx) v .outbound true anc = .ok s := h
  simp only [serializeTo, h, except_bind_ok]
  rcases processLeaf_ok.1 h' with ⟨h1, rfl⟩ | ⟨h1, v1, v2, v3, hd, hp, hc, hv, he⟩
  · rw [isNull_notNull (NotNull.mk' hv (by simp))] at h1; cases h1
  · obtain ⟨rfl, b, rfl, _⟩ := validate_binary.1 hv
    simp only [encodeStep, and_self, if_true, serOut, serializeLeaf, Except.ok.injEq] at he
    subst he
    rfl

/-! ### a case with dates and a default, and one with a tuple and integer keys -/

theorem Ex.days_ready (g : Field) (w : Val) (h : Involves Ex.env .outbound Ex.days Ex.daysValue g w) : JsonReady Ex.env g w := by
  cases h with
  | here => trivial
  | call hc hi =>
    cases hc with
    | member h1 h2 h3 h4 h5 h6 =>
      cases h1
      simp only [List.mem_cons, Prod.mk.injEq, List.not_mem_nil, or_false] at h2
      rcases h2 with ⟨rfl, rfl⟩ | ⟨rfl, rfl⟩
      · cases h3
        cases hi with
        | here => trivial
        | call hc hi =>
          cases hc with
          | item h1 h2 h3 =>
            cases h3
            cases hi with
            | call hc _ => cases hc
            | here => trivial
      · cases h3
        cases hi with
        | call hc _ => cases hc
        | here => trivial

example : ∃ text, serializeTo Ex.env 3 Ex.days (jsonOps Ex.env) Ex.daysValue [] = .ok text ∧
    ∀ a w, unserializeFrom Ex.env 3 Ex.days (jsonOps Ex.env) text a = .ok w ↔
      process Ex.env 3 Ex.days Ex.daysValue .inbound false a = .ok w :=
  C57_json _ (by intro d w d' h; cases h; rfl) 3 _ _ _ [] Ex.days_faithful Ex.days_ready rfl

example : serializeTo Ex.env 3 Ex.days (jsonOps Ex.env) Ex.daysValue [] = .ok c!"{\"days\": [\"2020-02-29\", \"2021-01-01\"]}" := rfl

/-- `Tuple((Map(Text(), key=Integer()), Integer()))` -/
def Ex.ranks : Field := .tuple {} [.map {} (some Ex.int) Ex.text [], Ex.int]

/-- `({1: 'a', 2: 'b'}, 5)` -/
def Ex.ranksValue : Val := .tuple [.dict [(.int 1, .str c!"a"), (.int 2, .str c!"b")], .int 5]

theorem Ex.int_written {n : Nat} {v w : Val} {ph : Phase} {ser : Bool} {anc : List Str}
    (hv : ∃ i, v = .int i) (h : process Ex.env n Ex.int v ph ser anc = .ok w) : w = v := by
  obtain ⟨i, rfl⟩ := hv
  cases n with
  | zero => cases h
  | succ n => cases ph <;> cases ser <;> cases h <;> rfl

theorem Ex.ranks_fits (g : Field) (w : Val) (h : Involves Ex.env .outbound Ex.ranks Ex.ranksValue g w) :
    Faithful Ex.env g w ∧ JsonReady Ex.env g w := by
  have hint : ∀ w, Faithful Ex.env Ex.int w ∧ JsonReady Ex.env Ex.int w := fun w =>
    ⟨⟨⟨fun c h => by cases h; exact ⟨rfl, fun h => by cases h⟩, trivial⟩, trivial⟩, trivial⟩
  have htext : ∀ w, Faithful Ex.env Ex.text w ∧ JsonReady Ex.env Ex.text w := fun w =>
    ⟨⟨⟨fun c h => by cases h; exact ⟨rfl, fun h => by cases h⟩, fun s hs => by cases hs⟩, trivial⟩, trivial⟩
  have hkey : ∀ {m ph ser a} {k k' : Val}, (∃ i, k = .int i) → KeyOk Ex.env m ph ser a (some Ex.int) k k' → k' = k := by
    intro m ph ser a k k' hk h
    cases h with
    | field _ hp => exact Ex.int_written hk hp
  cases h with
  | here =>
    exact ⟨⟨⟨fun c h => by cases h; exact ⟨rfl, fun h => by cases h⟩, trivial⟩, trivial⟩, trivial⟩
  | call hc hi =>
    cases hc with
    | tuple h1 h2 h3 h4 =>
      cases h1
      rcases h2 with h2 | h2 <;> cases h2
      simp only [List.zip_cons_cons, List.zip_nil_left, List.mem_cons, Prod.mk.injEq, List.not_mem_nil, or_false] at h3
      rcases h3 with ⟨rfl, rfl⟩ | ⟨rfl, rfl⟩
      · cases h4
        cases hi with
        | here =>
          refine ⟨⟨⟨fun c h => by cases h; exact ⟨rfl, fun h => by cases h⟩, trivial⟩, ?_⟩, ?_⟩
          · intro d hd
            cases hd
            refine .cons ?_ (.cons (by simp) .nil)
            intro e he m ph ser a1 a2 k1 k2 _ hk1 hk2
            cases List.mem_singleton.1 he
            rw [hkey ⟨_, rfl⟩ hk1, hkey ⟨_, rfl⟩ hk2]
            rfl
          · intro d hd
            cases hd
            refine .inr ⟨⟨_, _, _, rfl⟩, ?_⟩
            intro e he m a s hk
            have : ∃ i, e.1 = .int i := by
              simp only [List.mem_cons, List.not_mem_nil, or_false] at he
              rcases he with rfl | rfl <;> exact ⟨_, rfl⟩
            rw [hkey this hk]; exact this
        | call hc hi =>
          cases hc with
          | key h1 h2 =>
            cases hi with
            | call hc _ => cases hc
            | here => exact hint _
          | value h1 h2 h3 =>
            cases h3
            cases hi with
            | call hc _ => cases hc
            | here => exact htext _
      · cases h4
        cases hi with
        | call hc _ => cases hc
        | here => exact hint _

example : ∃ text, serializeTo Ex.env 3 Ex.ranks (jsonOps Ex.env) Ex.ranksValue [] = .ok text ∧
    ∀ a w, unserializeFrom Ex.env 3 Ex.ranks (jsonOps Ex.env) text a = .ok w ↔
      process Ex.env 3 Ex.ranks Ex.ranksValue .inbound false a = .ok w :=
  C57_json _ (by intro d w d' h; cases h; rfl) 3 _ _ _ [] (fun g w h => (Ex.ranks_fits g w h).1)
    (fun g w h => (Ex.ranks_fits g w h).2) rfl

example : serializeTo Ex.env 3 Ex.ranks (jsonOps Ex.env) Ex.ranksValue [] = .ok c!"[{\"1\": \"a\", \"2\": \"b\"}, 5]" := rfl
example : unserializeFrom Ex.env 3 Ex.ranks (jsonOps Ex.env) c!"[{\"1\": \"a\", \"2\": \"b\"}, 5]" [] = .ok Ex.ranksValue := rfl

/-! ### the restrictions are needed -/

/-- C57. A plain Field keeps a tuple, JSON does not. -/
theorem C57_tuple_in_any :
    serializeTo Ex.env 1 (.leaf {} .any) (jsonOps Ex.env) (.tuple [.int 1]) [] = .ok c!"[1]" ∧
    process Ex.env 1 (.leaf {} .any) (.tuple [.int 1]) .inbound false [] = .ok (.tuple [.int 1]) ∧
    unserializeFrom Ex.env 1 (.leaf {} .any) (jsonOps Ex.env) c!"[1]" [] = .ok (.list [.int 1]) := ⟨rfl, rfl, rfl⟩

/-- C57. A None among the integer keys of a map comes back as the text `null`, which the Integer field rejects. -/
theorem C57_none_key :
    let f : Field := .map {} (some Ex.int) Ex.int []
    serializeTo Ex.env 2 f (jsonOps Ex.env) (.dict [(.none, .int 1)]) [] = .ok c!"{\"null\": 1}" ∧
    process Ex.env 2 f (.dict [(.none, .int 1)]) .inbound false [] = .ok (.dict [(.none, .int 1)]) ∧
    ∃ e, unserializeFrom Ex.env 2 f (jsonOps Ex.env) c!"{\"null\": 1}" [] = .error e := ⟨rfl, rfl, _, rfl⟩

end Scheme
