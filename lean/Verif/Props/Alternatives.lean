import Verif.Spec.Types
import Verif.Props.RoundTrip
import Verif.Spec.JsonReady

/-! C83: unions whose alternatives are for different types. -/

namespace Scheme

theorem Raises.rejects {r : Except Exn Val} {anc : List Str} {v : Val} {tok : Str} (h : Raises r .invalidType anc v tok) : RejectsType r := by
  obtain ⟨t, m, h⟩ := h
  exact ⟨_, rfl, h⟩

theorem mkErr_rejects {f : Field} (hp : plainErrors f) {anc : List Str} {v : Val} {params : List (Str × Str)}
    (h : ∃ e, f.classErrors.find? (·.token == c!"invalid") = some e ∧ refsOk (params.map (·.1)) e.message = true) :
    RejectsType (.error (mkErr f .invalidType anc v c!"invalid" params)) := (mkErr_class f _ _ _ _ _ hp h).rejects

theorem isNull_typed {f : Field} {a : List PyType} (h : nativeTypes f = some a) {v : Val} (hv : v ≠ .none) (anc : List Str) :
    isNull f v anc = .ok false := by
  refine isNull_nonEnum ?_ ?_ hv
  · cases f <;> first | rfl | cases h
  · rintro c vals ign rfl
    cases h

/-- A field that is for particular types returns values of those types, and None for None only. -/
theorem typed_result {env : Env} {g : Field} {a : List PyType} (hg : nativeTypes g = some a) (hs : Settled env g) {n : Nat} {v r : Val}
    {ser : Bool} {anc : List Str} (h : process env n g v .inbound ser anc = .ok r) (hv : v ≠ .none) : typeOf r ∈ a := by
  obtain ⟨hpre, hk⟩ := hs
  cases n with
  | zero => cases h
  | succ n =>
    cases g with
    | undef s => cases hg
    | union c fs => cases hg
    | sequence c item mn mx u =>
      cases hg
      rcases (seq_ok (hpre c rfl).1).1 h with ⟨h, _⟩ | ⟨_, _, _, rfl, _⟩
      · exact absurd h hv
      · simp [typeOf]
    | tuple c fs =>
      cases hg
      rcases (tup_ok (hpre c rfl).1).1 h with ⟨h, _⟩ | ⟨_, _, _, rfl, _⟩
      · exact absurd h hv
      · simp [typeOf]
    | map c key value req =>
      cases hg
      rcases (map_ok (hpre c rfl).1).1 h with ⟨h, _⟩ | ⟨_, _, _, _, _, _, rfl, _⟩
      · exact absurd h hv
      · simp [typeOf]
    | «structure» c defn strict ko =>
      cases hg
      rcases (struct_ok (hpre c rfl).1 hk).1 h with ⟨h, _⟩ | ⟨_, _, _, _, _, _, rfl⟩
      · exact absurd h hv
      · simp [typeOf]
    | poly c disc vs strict ko =>
      cases hg
      obtain ⟨rfl, hd, hvs⟩ := hk
      rcases (poly_ok (hpre c rfl).1 (fun e he => (hvs e.1 e.2 he).2.1)).1 h with ⟨h, _⟩ |
        ⟨_, _, _, _, _, _, _, _, _, _, _, _, _, _, _, rfl⟩
      · exact absurd h hv
      · simp [typeOf]
    | leaf c k =>
      rcases processLeaf_ok.1 h with ⟨h, _⟩ | ⟨_, v1, v2, v3, _, _, _, h4, h5⟩
      · rw [isNull_typed hg hv] at h; cases h
      · have : r = v3 := by
          simp only [encodeStep, reduceCtorEq, and_false, if_false, Except.ok.injEq] at h5
          exact h5.symm
        subst this
        cases k <;> simp only [nativeTypes, reduceCtorEq, Option.some.injEq] at hg <;> subst hg <;>
          simp only [validateLeaf, validateText] at h4 <;> repeat' split at h4
        all_goals first
          | (cases h4; simp [typeOf]; done)
          | cases h4

theorem leaf_invalid {k : Leaf} {c : Common} {a : List PyType} (hg : nativeTypes (.leaf c k) = some a) :
    ∃ e, (Field.leaf c k).classErrors.find? (·.token == c!"invalid") = some e ∧ refsOk [] e.message = true := by
  cases k
  case email mn mx mult ext => cases mult <;> exact ⟨_, rfl, rfl⟩
  all_goals first | exact ⟨_, rfl, rfl⟩ | cases hg

/-- After decoding, a value of another type is rejected. -/
theorem leaf_rejects {env : Env} {c : Common} {k : Leaf} {a : List PyType} (hg : nativeTypes (.leaf c k) = some a) (hpre : c.pre = none)
    (hp : plainErrors (.leaf c k)) {v : Val} {ph : Phase} {ser : Bool} {anc : List Str} (hv : v ≠ .none)
    (hd : RejectsType (decodeStep env (.leaf c k) k v ph ser (ancOr (.leaf c k) anc)) ∨
      ∃ v1, decodeStep env (.leaf c k) k v ph ser (ancOr (.leaf c k) anc) = .ok v1 ∧ typeOf v1 ∉ a) :
    RejectsType (processLeaf env c k v ph ser anc) := by
  have hinv : ∀ A x, RejectsType (.error (mkErr (.leaf c k) .invalidType A x c!"invalid" [])) :=
    fun A x => mkErr_rejects hp (leaf_invalid hg)
  rw [processLeaf_eq, isNull_typed hg hv]
  simp only [except_bind_ok, Bool.false_eq_true, if_false]
  rcases hd with ⟨e, h1, h2⟩ | ⟨v1, h1, ht⟩
  · rw [h2]; exact ⟨e, h1, rfl⟩
  · rw [h1, except_bind_ok]
    have hpp : preprocess env (.leaf c k) c k v1 (ancOr (.leaf c k) anc) = .ok v1 ∨
        RejectsType (preprocess env (.leaf c k) c k v1 (ancOr (.leaf c k) anc)) := by
      unfold preprocess
      rw [hpre]
      cases k
      case email mn mx mult ext =>
        cases hg
        cases ext
        · cases v1 <;> first | exact .inr (hinv _ _) | exact absurd (by simp [typeOf]) ht
        · exact .inl rfl
      all_goals exact .inl rfl
    rcases hpp with h | ⟨e, he, h⟩
    · rw [h, except_bind_ok]
      unfold checkConst
      split
      · obtain ⟨e, he, h⟩ := hinv (ancOr (.leaf c k) anc) v1
        rw [h]; exact ⟨e, he, rfl⟩
      · rw [except_bind_ok]
        have : RejectsType (validateLeaf env (.leaf c k) k v1 (ancOr (.leaf c k) anc)) := by
          cases k <;> simp only [nativeTypes, reduceCtorEq, Option.some.injEq] at hg <;> subst hg <;> cases v1 <;>
            first
            | exact hinv _ _
            | exact absurd (by simp [typeOf]) ht
        obtain ⟨e, he, h⟩ := this
        rw [h]; exact ⟨e, he, rfl⟩
    · rw [h]; exact ⟨e, he, rfl⟩

/-- A value of another type is rejected natively (and when written). -/
theorem typed_rejects {env : Env} {g : Field} {a : List PyType} (hg : nativeTypes g = some a) (hs : Settled env g) (hp : plainErrors g)
    {n : Nat} {v : Val} {ph : Phase} {ser : Bool} (hn : (∃ c k, g = .leaf c k) → ¬ (ser = true ∧ ph = .inbound)) {anc : List Str} (hv : v ≠ .none)
    (ht : typeOf v ∉ a) : RejectsType (process env (n + 1) g v ph ser anc) := by
  obtain ⟨hpre, -⟩ := hs
  have hnull : ∀ A, isNull g v A = .ok false := isNull_typed hg hv
  cases g with
  | undef s => cases hg
  | union c fs => cases hg
  | sequence c item mn mx u =>
    cases hg
    have : process env (n + 1) (.sequence c item mn mx u) v ph ser anc =
        .error (mkErr (.sequence c item mn mx u) .invalidType (ancOr (.sequence c item mn mx u) anc) v c!"invalid" []) := by
      show processSequence env (process env n) c item mn mx u v ph ser anc = _
      unfold processSequence
      simp only [hnull, except_bind_ok, Bool.false_eq_true, if_false]
      cases v <;> first | rfl | exact absurd (by simp [typeOf]) ht
    rw [this]
    exact mkErr_rejects hp ⟨_, rfl, rfl⟩
  | tuple c fs => 
    cases hg
    have : process env (n + 1) (.tuple c fs) v ph ser anc =
        .error (mkErr (.tuple c fs) .invalidType (ancOr (.tuple c fs) anc) v c!"invalid" []) := by
      show processTuple env (process env n) c fs v ph ser anc = _
      unfold processTuple
      simp only [hnull, except_bind_ok, Bool.false_eq_true, if_false]
      cases v <;> first | rfl | exact absurd (by simp [typeOf]) ht
    rw [this]
    exact mkErr_rejects hp ⟨_, rfl, rfl⟩
  | map c key value req =>
    cases hg
    have : process env (n + 1) (.map c key value req) v ph ser anc =
        .error (mkErr (.map c key value req) .invalidType (ancOr (.map c key value req) anc) v c!"invalid" []) := by
      show processMap env (process env n) c key value req v ph ser anc = _
      unfold processMap
      simp only [hnull, except_bind_ok, Bool.false_eq_true, if_false]
      cases v <;> first | rfl | exact absurd (by simp [typeOf]) ht
    rw [this]
    exact mkErr_rejects hp ⟨_, rfl, rfl⟩
  | «structure» c defn strict ko =>
    cases hg
    have : process env (n + 1) (.structure c defn strict ko) v ph ser anc =
        .error (mkErr (.structure c defn strict ko) .invalidType (ancOr (.structure c defn strict ko) anc) v c!"invalid" []) := by
      show processStructure env (process env n) c defn strict ko false v ph ser anc = _
      unfold processStructure
      simp only [hnull, except_bind_ok, Bool.false_eq_true, if_false]
      cases v <;> first | rfl | exact absurd (by simp [typeOf]) ht
    rw [this]
    exact mkErr_rejects hp ⟨_, rfl, rfl⟩
  | poly c disc vs strict ko =>
    cases hg
    have : process env (n + 1) (.poly c disc vs strict ko) v ph ser anc =
        .error (mkErr (.poly c disc vs strict ko) .invalidType (ancOr (.poly c disc vs strict ko) anc) v c!"invalid" []) := by
      show processPoly env (process env n) c disc vs strict ko false v ph ser anc = _
      unfold processPoly
      simp only [hnull, except_bind_ok, Bool.false_eq_true, if_false]
      cases v <;> first | rfl | exact absurd (by simp [typeOf]) ht
    rw [this]
    exact mkErr_rejects hp ⟨_, rfl, rfl⟩
  | leaf c k =>
    refine leaf_rejects hg (hpre c rfl).1 hp hv (.inr ⟨v, ?_, ht⟩)
    unfold decodeStep
    rw [if_neg (hn ⟨_, _, rfl⟩)]

/-- A serialized value of another type is rejected. -/
theorem read_rejects {env : Env} {g : Field} {a : List PyType} (hg : readTypes g = some a) (hs : Settled env g) (hp : plainErrors g)
    {n : Nat} {v : Val} {anc : List Str} (hv : v ≠ .none) (ht : typeOf v ∉ a) : RejectsType (process env (n + 1) g v .inbound true anc) := by
  cases g with
  | undef s => cases hg
  | union c fs => cases hg
  | sequence c item mn mx u => cases hg; exact typed_rejects rfl hs hp (by simp) hv ht
  | tuple c fs => cases hg; exact typed_rejects rfl hs hp (by simp) hv ht
  | map c key value req => cases hg; exact typed_rejects rfl hs hp (by simp) hv ht
  | «structure» c defn strict ko => cases hg; exact typed_rejects rfl hs hp (by simp) hv ht
  | poly c disc vs strict ko => cases hg; exact typed_rejects rfl hs hp (by simp) hv ht
  | leaf c k =>
    have hnt : ∃ b, nativeTypes (.leaf c k) = some b := by cases k <;> first | exact ⟨_, rfl⟩ | cases hg
    obtain ⟨b, hb⟩ := hnt
    have hinv : ∀ A x, RejectsType (.error (mkErr (.leaf c k) .invalidType A x c!"invalid" [])) :=
      fun A x => mkErr_rejects hp (leaf_invalid hb)
    refine leaf_rejects hb (hs.1 c rfl).1 hp hv ?_
    unfold decodeStep
    rw [if_pos ⟨rfl, rfl⟩]
    cases k <;> simp only [readTypes, reduceCtorEq, Option.some.injEq] at hg <;> subst hg <;> cases hb <;> cases v <;>
      first
      | exact .inl (hinv _ _)
      | exact .inr ⟨_, rfl, of_decide_eq_true rfl⟩
      | exact absurd (of_decide_eq_true rfl) ht

/-- What a field writes is of its written types. -/
theorem typed_written {env : Env} {g : Field} {a : List PyType} (hg : writtenTypes g = some a) (hs : Settled env g) {n : Nat} {v s : Val}
    {anc : List Str} (h : process env n g v .outbound true anc = .ok s) (hv : v ≠ .none) : typeOf s ∈ a := by
  obtain ⟨hpre, hk⟩ := hs
  cases n with
  | zero => cases h
  | succ n =>
    cases g with
    | undef s => cases hg
    | union c fs => cases hg
    | sequence c item mn mx u =>
      cases hg
      rcases (seq_ok (hpre c rfl).1).1 h with ⟨h, _⟩ | ⟨_, _, _, rfl, _⟩
      · exact absurd h hv
      · simp [typeOf]
    | tuple c fs =>
      cases hg
      rcases (tup_ok (hpre c rfl).1).1 h with ⟨h, _⟩ | ⟨_, _, _, rfl, _⟩
      · exact absurd h hv
      · simp [typeOf]
    | map c key value req =>
      cases hg
      rcases (map_ok (hpre c rfl).1).1 h with ⟨h, _⟩ | ⟨_, _, _, _, _, _, rfl, _⟩
      · exact absurd h hv
      · simp [typeOf]
    | «structure» c defn strict ko =>
      cases hg
      rcases (struct_ok (hpre c rfl).1 hk).1 h with ⟨h, _⟩ | ⟨_, _, _, _, _, _, rfl⟩
      · exact absurd h hv
      · simp [typeOf]
    | poly c disc vs strict ko =>
      cases hg
      obtain ⟨rfl, hd, hvs⟩ := hk
      rcases (poly_ok (hpre c rfl).1 (fun e he => (hvs e.1 e.2 he).2.1)).1 h with ⟨h, _⟩ |
        ⟨_, _, _, _, _, _, _, _, _, _, _, _, _, _, _, rfl⟩
      · exact absurd h hv
      · simp [typeOf]
    | leaf c k =>
      have hnt : ∃ b, nativeTypes (.leaf c k) = some b := by cases k <;> first | exact ⟨_, rfl⟩ | cases hg
      obtain ⟨b, hb⟩ := hnt
      rcases processLeaf_ok.1 h with ⟨h, _⟩ | ⟨_, v1, v2, v3, _, _, _, h4, h5⟩
      · rw [isNull_typed hb hv] at h; cases h
      · have h5 : serializeLeaf env (.leaf c k) k v3 = .ok s := by
          simp only [encodeStep, and_self, if_true, serOut] at h5
          split at h5
          · cases h5
          · exact h5
        cases k <;> simp only [writtenTypes, reduceCtorEq, Option.some.injEq] at hg <;> subst hg <;>
          simp only [validateLeaf, validateText] at h4 <;> (repeat' split at h4) <;>
          first
          | (cases h4; done)
          | (cases h4; simp only [serializeLeaf] at h5; repeat' split at h5)
        all_goals first
          | (cases h5; simp [typeOf]; done)
          | (cases h5; done)

/-- What alternatives for different types make of a value tells them apart. -/
theorem C83_natives (env : Env) (c : Common) (fs : List Field) (hp : PlainAlternatives env fs) (ha : NativeTypesApart env fs) :
    NativesApart env c fs := by
  rintro n pre g v ser anc r hv ⟨⟨f, post, rfl, hg⟩, hrej, h⟩
  obtain ⟨g', hg', ht, hpl, hs⟩ := hp f (by simp)
  rw [hg] at hg'; cases hg'
  obtain ⟨b, hb⟩ := Option.isSome_iff_exists.1 ht
  have hr := typed_result hb hs h hv
  have hnn : r ≠ .none := by
    rintro rfl
    exact absurd hr (by
      cases g <;> simp only [nativeTypes, reduceCtorEq, Option.some.injEq] at hb <;> try (subst hb; simp [typeOf])
      split at hb <;> cases hb <;> simp [typeOf])
  refine ⟨fun h => absurd h hnn, fun _ anc' x hx => ?_⟩
  obtain ⟨y, hy, hty, hply, hsy⟩ := hp x (by simp [hx])
  obtain ⟨a, haa⟩ := Option.isSome_iff_exists.1 hty
  have hd := (List.pairwise_append.1 ha).2.2 x hx f (by simp) y g a b hy hg haa hb
  cases n with
  | zero => cases h
  | succ n => exact ⟨y, hy, typed_rejects haa hsy hply (fun _ => by simp) hnn (hd _ hr)⟩

theorem written_not_null {g : Field} {a : List PyType} (h : writtenTypes g = some a) : PyType.null ∉ a ∧ PyType.null ∉ a.map jsonType := by
  cases g <;> simp only [writtenTypes, reduceCtorEq, Option.some.injEq] at h <;> try (subst h; decide)
  split at h <;> cases h <;> decide

theorem typeOf_none {v : Val} (h : typeOf v ≠ .null) : v ≠ .none := by rintro rfl; exact h rfl

/-- What a field for particular types takes, natively or for writing, is of these types. -/
theorem typed_taken {env : Env} {g : Field} {a : List PyType} (hg : nativeTypes g = some a) (hs : Settled env g) (hp : plainErrors g)
    {n : Nat} {v s : Val} {anc : List Str} (h : process env n g v .outbound true anc = .ok s) (hv : v ≠ .none) : typeOf v ∈ a := by
  cases n with
  | zero => cases h
  | succ n =>
    by_cases ht : typeOf v ∈ a
    · exact ht
    · obtain ⟨_, _, h'⟩ := typed_rejects hg hs hp (n := n) (ph := .outbound) (ser := true) (anc := anc) (fun _ => by simp) hv ht
      rw [h] at h'; cases h'

/-- What alternatives for different types write tells them apart, if what can be written is accepted natively. -/
theorem C83_written (env : Env) (fs : List Field) (hp : PlainAlternatives env fs) (hn : NativeTypesApart env fs)
    (hw : WrittenTypesApart env id fs) (v : Val) (hv : v ≠ .none)
    (hacc : ∀ f ∈ fs, ∀ g, resolve env f = some g → (∃ c k, g = .leaf c k) ∨ ∀ n anc anc' s,
      process env n g v .outbound true anc = .ok s → ∃ w, process env n g v .inbound false anc' = .ok w) : WrittenApart env fs v := by
  rintro n pre g anc s ⟨⟨f, post, rfl, hg⟩, hrej, h⟩
  obtain ⟨g', hg', ht, hpl, hs⟩ := hp f (by simp)
  rw [hg] at hg'; cases hg'
  obtain ⟨b, hb⟩ := Option.isSome_iff_exists.1 ht
  have hvt := typed_taken hb hs hpl h hv
  obtain ⟨wt, hwt⟩ := Option.isSome_iff_exists.1 (hw.1 f (by simp) g hg)
  have hst := typed_written hwt hs h hv
  have hsn : s ≠ .none := typeOf_none fun e => (written_not_null hwt).1 (e ▸ hst)
  refine ⟨hsn, fun anc' => ⟨?_, fun x hx => ?_, fun x hx => ?_⟩⟩
  · rcases hacc f (by simp) g hg with ⟨c, k, rfl⟩ | ha
    · exact leaf_accepts _ h
    · exact ha _ _ _ _ h
  · obtain ⟨y, hy, hty, hply, hsy⟩ := hp x (by simp [hx])
    obtain ⟨a, haa⟩ := Option.isSome_iff_exists.1 hty
    have hd := (List.pairwise_append.1 hn).2.2 x hx f (by simp) y g a b hy hg haa hb
    cases n with
    | zero => cases h
    | succ n => exact ⟨y, hy, typed_rejects haa hsy hply (fun _ => by simp) hv (hd _ hvt)⟩
  · obtain ⟨y, hy, hty, hply, hsy⟩ := hp x (by simp [hx])
    obtain ⟨a, b', haa, hb', hd⟩ := (List.pairwise_append.1 hw.2).2.2 x hx f (by simp) y g hy hg
    rw [hwt] at hb'; cases hb'
    cases n with
    | zero => cases h
    | succ n => exact ⟨y, hy, read_rejects haa hsy hply hsn (hd _ (by rw [List.map_id]; exact hst))⟩

theorem json_type {env : Env} {s s' : Val} (h : Json.Carries env s s') : typeOf s' = jsonType (typeOf s) := by
  cases h <;> rfl

/-- The same for what comes back through JSON, where tuples become lists. -/
theorem C83_json (env : Env) (fs : List Field) (hp : PlainAlternatives env fs) (hw : WrittenTypesApart env jsonType fs) (v : Val)
    (hv : v ≠ .none) : CarriedApart env (Json.Carries env) fs v := by
  rintro n pre g anc s s' ⟨⟨f, post, rfl, hg⟩, hrej, h⟩ hc
  obtain ⟨g', hg', ht, hpl, hs⟩ := hp f (by simp)
  rw [hg] at hg'; cases hg'
  obtain ⟨wt, hwt⟩ := Option.isSome_iff_exists.1 (hw.1 f (by simp) g hg)
  have hst : typeOf s' ∈ wt.map jsonType := by
    rw [json_type hc]
    exact List.mem_map_of_mem (typed_written hwt hs h hv)
  have hsn : s' ≠ .none := typeOf_none fun e => (written_not_null hwt).2 (e ▸ hst)
  refine ⟨hsn, fun anc' x hx => ?_⟩
  obtain ⟨y, hy, hty, hply, hsy⟩ := hp x (by simp [hx])
  obtain ⟨a, b', haa, hb', hd⟩ := (List.pairwise_append.1 hw.2).2.2 x hx f (by simp) y g hy hg
  rw [hwt] at hb'; cases hb'
  cases n with
  | zero => cases h
  | succ n => exact ⟨y, hy, read_rejects haa hsy hply hsn (hd _ hst)⟩

/-- A union of simple fields for different types: a value accepted once comes back when it is written and read. -/
theorem C83_round (env : Env) (hz : ZoneLaw env) (n : Nat) (c : Common) (fs : List Field)
    (hc : c.pre = none ∧ (c.ignoreNull = true → c.default = .none ∧ c.required = false))
    (hl : ∀ f ∈ fs, ∀ g, resolve env f = some g → ∃ c k, g = .leaf c k)
    (hp : PlainAlternatives env fs) (hn : NativeTypesApart env fs) (hw : WrittenTypesApart env id fs) (u v s : Val) (ser : Bool)
    (a0 a1 a2 : List Str) (hu : process env n (.union c fs) u .inbound ser a0 = .ok v)
    (hf : ∀ f ∈ fs, ∀ g, resolve env f = some g → Faithful env g v)
    (h : process env n (.union c fs) v .outbound true a1 = .ok s) :
    process env n (.union c fs) v .inbound false a2 = .ok v ∧ process env n (.union c fs) s .inbound true a2 = .ok v := by
  have hs : Settled env (.union c fs) := ⟨fun c' h => by cases h; exact hc, C83_natives env c fs hp hn⟩
  have hev : Everywhere env (Settled env) (.union c fs) := by
    refine .mk' hs fun g hg => ?_
    cases hg with
    | union hm hr =>
      obtain ⟨c', k, rfl⟩ := hl _ hm _ hr
      exact .leaf (hf _ hm _ hr).1
  refine ⟨C02_idempotent env hz n _ hev u v ser a0 a2 hu, C03_round_trip env hz n _ hev u v s ser a0 a1 a2 hu ?_ h⟩
  intro g w hi
  cases hi with
  | here => exact ⟨hs, fun hv => C83_written env fs hp hn hw v hv fun f hm g hr => .inl (hl f hm g hr)⟩
  | call hc' hi =>
    cases hc' with
    | union hm hr =>
      obtain ⟨c', k, rfl⟩ := hl _ hm _ hr
      cases hi with
      | here => exact hf _ hm _ hr
      | call hc' _ => cases hc'

/-! ### Cases -/

def Ex.mark : List Field := [.leaf {} (.text none none none true), .leaf {} .boolean, .leaf {} (.integer none none)]

theorem Ex.mark_plain : PlainAlternatives Ex.env Ex.mark := by
  intro f hf
  simp only [Ex.mark, List.mem_cons, List.not_mem_nil, or_false] at hf
  rcases hf with rfl | rfl | rfl
  · exact ⟨_, rfl, rfl, (by intro e he; cases he), fun c h => (by cases h; exact ⟨rfl, fun h => (by cases h)⟩), fun s h => (by cases h)⟩
  · exact ⟨_, rfl, rfl, (by intro e he; cases he), fun c h => (by cases h; exact ⟨rfl, fun h => (by cases h)⟩), trivial⟩
  · exact ⟨_, rfl, rfl, (by intro e he; cases he), fun c h => (by cases h; exact ⟨rfl, fun h => (by cases h)⟩), trivial⟩

theorem Ex.mark_apart : NativeTypesApart Ex.env Ex.mark ∧ WrittenTypesApart Ex.env id Ex.mark := by
  refine ⟨?_, ?_, ?_⟩
  · simp only [NativeTypesApart, Ex.mark, List.pairwise_cons, List.mem_cons, List.not_mem_nil, or_false, forall_eq_or_imp, forall_eq,
      List.Pairwise.nil, and_true, false_imp_iff, implies_true]
    refine ⟨⟨?_, ?_⟩, ?_⟩ <;> (rintro _ _ _ _ ⟨⟩ ⟨⟩ ⟨⟩ ⟨⟩; unfold DisjointTypes; decide)
  · intro f hf g hg
    simp only [Ex.mark, List.mem_cons, List.not_mem_nil, or_false] at hf
    rcases hf with rfl | rfl | rfl <;> cases hg <;> rfl
  · simp only [Ex.mark, List.pairwise_cons, List.mem_cons, List.not_mem_nil, or_false, forall_eq_or_imp, forall_eq,
      List.Pairwise.nil, and_true, false_imp_iff, implies_true]
    refine ⟨⟨?_, ?_⟩, ?_⟩ <;> (rintro _ _ ⟨⟩ ⟨⟩; exact ⟨_, _, rfl, rfl, by unfold DisjointTypes; decide⟩)

/-- `Union([Text(), Boolean(), Integer()])`: whatever it accepts comes back. -/
example (u v s : Val) (ser : Bool) (hu : process Ex.env 5 (.union {} Ex.mark) u .inbound ser [] = .ok v)
    (h : process Ex.env 5 (.union {} Ex.mark) v .outbound true [] = .ok s) :
    process Ex.env 5 (.union {} Ex.mark) s .inbound true [] = .ok v := by
  refine (C83_round Ex.env (by intro d w d' h; cases h; rfl) 5 {} Ex.mark ⟨rfl, fun h => by cases h⟩ ?_ Ex.mark_plain Ex.mark_apart.1
    Ex.mark_apart.2 u v s ser [] [] [] hu ?_ h).2
  · intro f hf g hg
    simp only [Ex.mark, List.mem_cons, List.not_mem_nil, or_false] at hf
    rcases hf with rfl | rfl | rfl <;> cases hg <;> exact ⟨_, _, rfl⟩
  · intro f hf g hg
    obtain ⟨g', hg', _, _, hs⟩ := Ex.mark_plain f hf
    rw [hg] at hg'; cases hg'
    refine ⟨hs, ?_⟩
    simp only [Ex.mark, List.mem_cons, List.not_mem_nil, or_false] at hf
    rcases hf with rfl | rfl | rfl <;> cases hg <;> trivial

example : process Ex.env 5 (.union {} Ex.mark) (.int 5) .inbound false [] = .ok (.int 5) ∧
    process Ex.env 5 (.union {} Ex.mark) (.str c!" 5 ") .inbound true [] = .ok (.str c!"5") := ⟨rfl, rfl⟩

/-- The order matters: with the Integer before the Text, the text '5' comes back as a number. -/
theorem C83_order_fails :
    let f : Field := .union {} [.leaf {} (.integer none none), .leaf {} (.text none none none true)]
    process Ex.env 2 f (.str c!"5") .inbound false [] = .ok (.str c!"5") ∧
    process Ex.env 2 f (.str c!"5") .outbound true [] = .ok (.str c!"5") ∧
    process Ex.env 2 f (.str c!"5") .inbound true [] = .ok (.int 5) := ⟨rfl, rfl, rfl⟩

/-- A Sequence before a Tuple reads back the tuples that are written as they are, but takes the lists that JSON makes of them. -/
theorem C83_json_fails :
    let f : Field := .union {} [.sequence {} Ex.int none none false, .tuple {} [Ex.int]]
    process Ex.env 3 f (.tuple [.int 5]) .outbound true [] = .ok (.tuple [.int 5]) ∧
    process Ex.env 3 f (.tuple [.int 5]) .inbound true [] = .ok (.tuple [.int 5]) ∧
    process Ex.env 3 f (.list [.int 5]) .inbound true [] = .ok (.list [.int 5]) := ⟨rfl, rfl, rfl⟩

end Scheme
