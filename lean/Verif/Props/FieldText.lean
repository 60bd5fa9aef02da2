import Verif.Spec.TextReady
import Verif.Props.FieldFormat
import Verif.Props.Reorder
import Verif.Props.UrlEncoded
import Verif.Props.Xml
import Verif.Props.Yaml

/-! C69: fields through structured text, query strings, XML and YAML. -/

namespace Scheme

/-! ### numbers as texts -/

theorem noBrackets_escape {s : Str} (h : NoBrackets s) : stEscape s = s := by
  refine stEscape_id fun c hc => ?_
  obtain ⟨h1, h2, h3, h4⟩ := h
  cases hb : isBracket c with
  | false => rfl
  | true =>
    simp only [isBracket, Bool.or_eq_true, beq_iff_eq] at hb
    rcases hb with ((rfl | rfl) | rfl) | rfl <;> contradiction

theorem intStr_escape (i : Int) : stEscape (intStr i) = intStr i :=
  noBrackets_escape ⟨not_mem_intStr (by decide) (by decide), not_mem_intStr (by decide) (by decide),
    not_mem_intStr (by decide) (by decide), not_mem_intStr (by decide) (by decide)⟩

/-- They have the same structured text. -/
theorem Texted.content {env : Env} {v w : Val} (h : Texted env v w) : stContent env.str v = stContent env.str w := by
  induction h with
  | none => rfl
  | bool b => rfl
  | text s => rfl
  | int i => simp only [stContent, intStr_escape]
  | float h => simp only [stContent, noBrackets_escape h]
  | list h ih =>
    rename_i ps
    have : stContentL env.str (ps.map (·.1)) = stContentL env.str (ps.map (·.2)) := by
      clear h
      induction ps with
      | nil => rfl
      | cons p r ihr =>
        simp only [List.map_cons, stContentL, ih p List.mem_cons_self, ihr fun q hq => ih q (List.mem_cons_of_mem _ hq)]
    simp only [stContent, this]
  | tuple h ih =>
    rename_i ps
    have : stContentL env.str (ps.map (·.1)) = stContentL env.str (ps.map (·.2)) := by
      clear h
      induction ps with
      | nil => rfl
      | cons p r ihr =>
        simp only [List.map_cons, stContentL, ih p List.mem_cons_self, ihr fun q hq => ih q (List.mem_cons_of_mem _ hq)]
    simp only [stContent, this]
  | dict h ih =>
    rename_i es
    have : stContentD env.str (es.map fun e => (.str e.1, e.2.1)) = stContentD env.str (es.map fun e => (.str e.1, e.2.2)) := by
      clear h
      induction es with
      | nil => rfl
      | cons p r ihr =>
        simp only [List.map_cons, stContentD, ih p List.mem_cons_self, ihr fun q hq => ih q (List.mem_cons_of_mem _ hq)]
    simp only [stContent, this]

theorem Texted.none_iff {env : Env} {v w : Val} (h : Texted env v w) : v = .none ↔ w = .none := by
  cases h <;> simp

theorem text_carrier (env : Env) : Carrier (Texted env) (fun k t => k = .str t) where
  none := .none
  none_iff := Texted.none_iff
  list := .list
  tuple := .tuple
  str _ := rfl
  dict := by
    intro es _ hk he
    have h := Texted.dict (env := env) (es := es.map fun e => (e.1.2, e.2.1, e.2.2)) (by
      intro e h
      obtain ⟨e', h', rfl⟩ := List.mem_map.1 h
      exact he e' h')
    rw [List.map_map, List.map_map] at h
    have e1 : (es.map fun e => (e.1.1, e.2.1)) = es.map ((fun e : Str × Val × Val => (Val.str e.1, e.2.1)) ∘
        fun e : (Val × Str) × Val × Val => (e.1.2, e.2.1, e.2.2)) :=
      List.map_congr_left fun e he => by simp only [Function.comp, hk e he]
    rw [e1]
    exact h

/-- A Float field reads the text of a float as the float. -/
theorem float_alike {env : Env} {n : Nat} {c : Common} {mn mx : Option PyFloat} {x : PyFloat} {t : Str}
    (ht : env.floatOfStr t = some x) : ReadsAlike env n (.leaf c (.float mn mx)) (.float x) (.str t) := by
  intro a w
  cases n with
  | zero => exact ⟨fun h => (by cases h), fun h => (by cases h)⟩
  | succ n =>
    show processLeaf env c (.float mn mx) _ .inbound true a = .ok w ↔ processLeaf env c (.float mn mx) _ .inbound true a = .ok w
    rw [processLeaf_ok, processLeaf_ok]
    have e1 : ∀ x : Val, x ≠ .none → isNull (.leaf c (.float mn mx)) x (ancOr (.leaf c (.float mn mx)) a) = .ok false :=
      fun x hx => isNull_notNull (NotNull.mk' hx (by simp))
    rw [e1 _ (by simp), e1 _ (by simp)]
    have e2 : decodeStep env (.leaf c (.float mn mx)) (.float mn mx) (.str t) .inbound true (ancOr (.leaf c (.float mn mx)) a) =
        decodeStep env (.leaf c (.float mn mx)) (.float mn mx) (.float x) .inbound true (ancOr (.leaf c (.float mn mx)) a) := by
      simp [decodeStep, unserializeLeaf, toFloat, ht]
    rw [e2]

theorem text_leaf {env : Env} (hz : ZoneLaw env) : CarriesLeaf env (Texted env) (TextReady env) := by
  intro n c k v s anc hf hj h
  have hpre := (hf.1.1 c rfl).1
  cases leaf_writes hz hf h with
  | none => exact ⟨_, .none, fun _ _ => Iff.rfl⟩
  | bool b => exact ⟨_, .bool b, fun _ _ => Iff.rfl⟩
  | text t => exact ⟨_, .text t, fun _ _ => Iff.rfl⟩
  | asis hk => rcases hk with rfl | ⟨_, _, rfl⟩ <;> exact ⟨_, hj, fun _ _ => Iff.rfl⟩
  | int i mn mx hk => subst hk; exact ⟨_, .int i, integer_alike hpre i⟩
  | float x mn mx hk =>
    subst hk
    obtain ⟨h1, h2⟩ := hj _ _ _ h
    exact ⟨_, .float h2, float_alike h1⟩
  | bytes _ _ hk hn => subst hk; exact absurd hj hn

theorem text_keys (env : Env) : CarriesKeys env (fun k t => k = .str t) (TextReady env) := by
  intro n c key value req d out hj _ hent
  have hs : ∀ e ∈ out, ∃ s, e.1 = .str s := by
    intro e he
    obtain ⟨k, ⟨x, hx⟩, a, hk⟩ := hent e he
    exact hj d rfl (k, x) hx _ _ _ hk
  refine ⟨fun v => match v with | .str s => s | _ => [], fun e he => ?_⟩
  obtain ⟨s, hs1⟩ := hs e he
  refine ⟨by rw [hs1], by rw [hs1]; exact fun _ _ => Iff.rfl, fun e' he' hne => ?_⟩
  obtain ⟨s', hs2⟩ := hs e' he'
  rw [hs1, hs2] at hne ⊢
  rintro rfl
  simp [pyEq] at hne

/-- What a field writes has a counterpart of texts, which the field reads alike. -/
theorem texted {env : Env} (hz : ZoneLaw env) {n : Nat} {f : Field} {v s : Val} {anc : List Str}
    (hf : ∀ g w, Involves env .outbound f v g w → Faithful env g w)
    (hj : ∀ g w, Involves env .outbound f v g w → TextReady env g w)
    (h : process env n f v .outbound true anc = .ok s) : ∃ s', Texted env s s' ∧ ReadsAlike env n f s s' :=
  carried_by (text_carrier env) (text_leaf hz) (text_keys env) (fun _ _ _ h => h) hz hf hj h

/-- There is one such counterpart. -/
theorem Texted.unique {env : Env} {v w w' : Val} (h : Texted env v w) (h' : Texted env v w') : w = w' := by
  have hl : ∀ {ps qs : List (Val × Val)}, (∀ p ∈ ps, ∀ w', Texted env p.1 w' → p.2 = w') → (∀ q ∈ qs, Texted env q.1 q.2) →
      ps.map (·.1) = qs.map (·.1) → ps.map (·.2) = qs.map (·.2) := by
    intro ps
    induction ps with
    | nil => intro qs _ _ he; cases qs with
      | nil => rfl
      | cons q r => simp at he
    | cons p r ihr =>
      intro qs hp hq he
      cases qs with
      | nil => simp at he
      | cons q r' =>
        simp only [List.map_cons, List.cons.injEq] at he ⊢
        exact ⟨hp p List.mem_cons_self _ (he.1 ▸ hq q List.mem_cons_self),
          ihr (fun p h => hp p (List.mem_cons_of_mem _ h)) (fun q h => hq q (List.mem_cons_of_mem _ h)) he.2⟩
  induction h generalizing w' with
  | none => cases h'; rfl
  | bool b => cases h'; rfl
  | text s => cases h'; rfl
  | int i => cases h'; rfl
  | float _ => cases h'; rfl
  | list h ih =>
    rename_i ps
    generalize hx : Val.list (ps.map (·.1)) = x at h'
    cases h' with
    | list hq => exact congrArg _ (hl (fun p hp w' => ih p hp) hq (Val.list.inj hx))
    | _ => cases hx
  | tuple h ih =>
    rename_i ps
    generalize hx : Val.tuple (ps.map (·.1)) = x at h'
    cases h' with
    | tuple hq => exact congrArg _ (hl (fun p hp w' => ih p hp) hq (Val.tuple.inj hx))
    | _ => cases hx
  | dict h ih =>
    rename_i es
    generalize hx : Val.dict (es.map fun e => (.str e.1, e.2.1)) = x at h'
    cases h' with
    | dict hq =>
      rename_i qs
      replace hx := Val.dict.inj hx
      refine congrArg Val.dict ?_
      clear h
      induction es generalizing qs with
      | nil => cases qs with
        | nil => rfl
        | cons q r => simp at hx
      | cons p r ihr =>
        cases qs with
        | nil => simp at hx
        | cons q r' =>
          simp only [List.map_cons, List.cons.injEq, Prod.mk.injEq, Val.str.injEq] at hx ⊢
          exact ⟨⟨hx.1.1, ih p List.mem_cons_self (hx.1.2 ▸ hq q List.mem_cons_self)⟩,
            ihr (fun p h => ih p (List.mem_cons_of_mem _ h)) (fun q h => hq q (List.mem_cons_of_mem _ h)) hx.2⟩
    | _ => cases hx

/-! ### through any format -/

/-- Reading the document `text` with `f` does what native inbound processing of `v` does, up to the order of dict entries. -/
def ReadBack (env : Env) (n : Nat) (f : Field) (ops : FormatOps) (text : Str) (v : Val) : Prop :=
  ∀ a, (∀ w, process env n f v .inbound false a = .ok w → ∃ w', unserializeFrom env n f ops text a = .ok w' ∧ SameData w w') ∧
    ∀ w', unserializeFrom env n f ops text a = .ok w' → ∃ w, process env n f v .inbound false a = .ok w ∧ SameData w w'

theorem read_back {env : Env} (hz : ZoneLaw env) {n : Nat} {f : Field} {ops : FormatOps} {v s s₁ s₂ : Val} {text : Str} {anc : List Str}
    (hf : ∀ g w, Involves env .outbound f v g w → Faithful env g w) (h : process env n f v .outbound true anc = .ok s)
    (hr : ReadsAlike env n f s s₁) (ho : ∀ g w, Involves env .inbound f s₁ g w → Orderly env .inbound true g w)
    (hd : SameData s₁ s₂) (ht : ops.read text f = .ok s₂) : ReadBack env n f ops text v := by
  intro a
  have hu : ∀ w, unserializeFrom env n f ops text a = .ok w ↔ process env n f s₂ .inbound true a = .ok w := by
    intro w; simp only [unserializeFrom, ht, except_bind_ok]
  obtain ⟨h1, h2⟩ := C68_reorder env n f s₁ s₂ .inbound true a hd ho
  constructor
  · intro w hw
    obtain ⟨w', h3, h4⟩ := h1 w ((hr a w).1 ((C03_serialize_unserialize env hz n f v s anc hf h a a w).2 hw))
    exact ⟨w', (hu w').2 h3, h4⟩
  · intro w' hw
    obtain ⟨w, h3, h4⟩ := h2 w' ((hu w').1 hw)
    exact ⟨w, (C03_serialize_unserialize env hz n f v s anc hf h a a w).1 ((hr a w).2 h3), h4⟩

/-- C69. Through structured text.  Numbers are read as texts, which the fields turn back into numbers. -/
theorem C69_structured_text (env : Env) (hz : ZoneLaw env) (n : Nat) (f : Field) (v s s₁ : Val) (anc : List Str)
    (hf : ∀ g w, Involves env .outbound f v g w → Faithful env g w)
    (hj : ∀ g w, Involves env .outbound f v g w → TextReady env g w)
    (h : process env n f v .outbound true anc = .ok s) (hs : Texted env s s₁)
    (hc : IsContainer s₁) (hw : Writable env false s₁)
    (ho : ∀ g w, Involves env .inbound f s₁ g w → Orderly env .inbound true g w) :
    ∃ text, serializeTo env n f (stOps env false) v anc = .ok text ∧ ReadBack env n f (stOps env false) text v := by
  obtain ⟨s', h1, h2⟩ := texted hz hf hj h
  cases hs.unique h1
  obtain ⟨t, w, h3, h4, h5⟩ := C40_roundtrip env false s₁ hc hw
  refine ⟨t, ?_, read_back hz hf h h2 ho h5 h4⟩
  simp only [stSerialize, ← hs.content] at h3
  simp only [serializeTo, h, except_bind_ok, stOps, stSerialize, h3]

/-- C69. Through structured text read with `parse_numbers`: integers come back as integers. -/
theorem C69_structured_numbers (env : Env) (hz : ZoneLaw env) (n : Nat) (f : Field) (v s : Val) (anc : List Str)
    (hf : ∀ g w, Involves env .outbound f v g w → Faithful env g w)
    (h : process env n f v .outbound true anc = .ok s) (hc : IsContainer s) (hw : Writable env true s)
    (ho : ∀ g w, Involves env .inbound f s g w → Orderly env .inbound true g w) :
    ∃ text, serializeTo env n f (stOps env true) v anc = .ok text ∧ ReadBack env n f (stOps env true) text v := by
  obtain ⟨t, w, h3, h4, h5⟩ := C40_roundtrip env true s hc hw
  refine ⟨t, ?_, read_back hz hf h (fun _ _ => Iff.rfl) ho h5 h4⟩
  simp only [serializeTo, h, except_bind_ok, stOps, h3]

/-- C69. Through a query string. -/
theorem C69_query (env : Env) (hz : ZoneLaw env) (n : Nat) (f : Field) (v s : Val) (d : List (Val × Val)) (anc : List Str)
    (hf : ∀ g w, Involves env .outbound f v g w → Faithful env g w)
    (hj : ∀ g w, Involves env .outbound f v g w → TextReady env g w)
    (h : process env n f v .outbound true anc = .ok s) (hs : Texted env s (.dict d))
    (hn : (d.map (·.1)).Nodup) (hu : ∀ e ∈ d, UrlOk env e.2)
    (ho : ∀ g w, Involves env .inbound f (.dict d) g w → Orderly env .inbound true g w) :
    ∃ text, serializeTo env n f (urlOps env) v anc = .ok text ∧ ReadBack env n f (urlOps env) text v := by
  obtain ⟨s', h1, h2⟩ := texted hz hf hj h
  cases hs.unique h1
  cases hs with
  | dict he =>
    rename_i es
    have hdata : urlData env (es.map fun e => (.str e.1, e.2.1)) = urlData env (es.map fun e => (.str e.1, e.2.2)) := by
      clear hf hj h h1 h2 hn hu ho
      induction es with
      | nil => rfl
      | cons p r ihr =>
        simp only [List.map_cons, urlData, (he p List.mem_cons_self).content, ihr fun q hq => he q (List.mem_cons_of_mem _ hq)]
    have hk : ∀ e ∈ es.map (fun e => (Val.str e.1, e.2.2)), ∃ k, e.1 = .str k := by
      intro e h
      obtain ⟨e', _, rfl⟩ := List.mem_map.1 h
      exact ⟨_, rfl⟩
    obtain ⟨t, w, h3, h4, h5⟩ := C41_roundtrip env _ hn hk fun e he => .inl (hu e he)
    have hb : ((es.map fun e => (Val.str e.1, e.2.2)).filter fun e => !isBlank e.2) = es.map fun e => (Val.str e.1, e.2.2) := by
      rw [List.filter_eq_self]
      intro e he
      rcases hu e he with h | ⟨b, h⟩ | ⟨s, h, h', _⟩ | ⟨⟨l, h⟩ | ⟨d, h⟩, _⟩
      case inr.inr.inl => rw [h]; cases s with
        | nil => exact absurd rfl h'
        | cons => rfl
      all_goals rw [h]; rfl
    rw [hb] at h5
    refine ⟨t, ?_, read_back hz hf h h2 ho (.dict _ (.refl _) h5) h4⟩
    simp only [urlSerialize, ← hdata] at h3
    simp only [serializeTo, h, except_bind_ok, urlOps, urlSerialize, h3]

/-- C69. Through XML. -/
theorem C69_xml (env : Env) (hz : ZoneLaw env) (n m : Nat) (preamble : Bool) (f : Field) (v s : Val) (anc : List Str)
    (hf : ∀ g w, Involves env .outbound f v g w → Faithful env g w)
    (h : process env n f v .outbound true anc = .ok s) (hx : XmlValue env f s) (hroot : XmlName (tagName c!"root" f))
    (hm : s.depth < m) (ho : ∀ g w, Involves env .inbound f s g w → Orderly env .inbound true g w) :
    ∃ text, serializeTo env n f (xmlOps env m preamble) v anc = .ok text ∧ ReadBack env n f (xmlOps env m preamble) text v := by
  obtain ⟨t, w, h3, h4, h5⟩ := C43_roundtrip hx hroot hm preamble
  refine ⟨t, ?_, read_back hz hf h (fun _ _ => Iff.rfl) ho h5 h4⟩
  simp only [serializeTo, h, except_bind_ok, xmlOps, h3]

/-- C69. Through YAML, if the reader of YAML reads the documents it should. -/
theorem C69_yaml [Yaml.Floats] (env : Env) (hz : ZoneLaw env) (wrap : Str → Str → List Str) (load : Str → Except Exn Val)
    (hl : ∀ m t w, Yaml.read m t = some w → load t = .ok w) (n : Nat) (f : Field) (v s : Val) (anc : List Str)
    (hf : ∀ g w, Involves env .outbound f v g w → Faithful env g w)
    (h : process env n f v .outbound true anc = .ok s) (hy : Yaml.Carries env 0 s)
    (ho : ∀ g w, Involves env .inbound f s g w → Orderly env .inbound true g w) :
    ∃ text, serializeTo env n f (yamlOps env wrap load) v anc = .ok text ∧ ReadBack env n f (yamlOps env wrap load) text v := by
  obtain ⟨t, w, h3, h4, h5⟩ := C44_round_trip (wrap := wrap) hy
  refine ⟨t, ?_, read_back hz hf h (fun _ _ => Iff.rfl) ho h4 (hl _ _ _ (h5 (s.depth + 1) (Nat.lt_succ_self _)))⟩
  simp only [serializeTo, h, except_bind_ok, yamlOps, h3]

/-- C69. So what was accepted once comes back the same, up to the order of dict entries. -/
theorem C69_accepted (env : Env) (hz : ZoneLaw env) (n : Nat) (f : Field) (hs : Everywhere env (Settled env) f) (ops : FormatOps)
    (u v : Val) (ser : Bool) (a0 a : List Str) (text : Str) (hv : process env n f u .inbound ser a0 = .ok v)
    (hb : ReadBack env n f ops text v) : ∃ w, unserializeFrom env n f ops text a = .ok w ∧ SameData v w :=
  (hb a).1 v (C02_idempotent env hz n f hs u v ser a0 a hv)

/-! ### a case -/

/-- `Structure({'b': Integer(), 'a': Integer()})` -/
def Ex.two : Field := .structure {} [(c!"b", Ex.int), (c!"a", Ex.int)] true []

/-- `{'b': 1, 'a': 2}` -/
def Ex.twoValue : Val := .dict [(.str c!"b", .int 1), (.str c!"a", .int 2)]

/-- `{'b': '1', 'a': '2'}` -/
def Ex.twoTexts : List (Val × Val) := [(.str c!"b", .str c!"1"), (.str c!"a", .str c!"2")]

theorem Ex.two_involves {ph : Phase} {v : Val} {g : Field} {w : Val} (h : Involves Ex.env ph Ex.two v g w) :
    (g = Ex.two ∧ w = v) ∨ g = Ex.int := by
  cases h with
  | here => exact .inl ⟨rfl, rfl⟩
  | call hc hi =>
    cases hc with
    | member h1 h2 h3 h4 h5 h6 =>
      simp only [List.mem_cons, Prod.mk.injEq, List.not_mem_nil, or_false] at h2
      rcases h2 with ⟨rfl, rfl⟩ | ⟨rfl, rfl⟩
      all_goals
        cases h3
        cases hi with
        | call hc _ => cases hc
        | here => exact .inr rfl

theorem Ex.two_faithful (g : Field) (w : Val) (h : Involves Ex.env .outbound Ex.two Ex.twoValue g w) : Faithful Ex.env g w := by
  rcases Ex.two_involves h with ⟨rfl, rfl⟩ | rfl
  · refine ⟨⟨fun c h => by cases h; exact ⟨rfl, fun h => by cases h⟩,
      (by decide : (visited [(c!"b", Field.undef 0), (c!"a", .undef 0)] []).Nodup)⟩, ?_⟩
    intro d hd name g c hdecl
    cases hd
    obtain ⟨f, hl, hr, hc⟩ := hdecl
    have hm := lookup_mem hl
    simp only [List.mem_cons, Prod.mk.injEq, List.not_mem_nil, or_false] at hm
    rcases hm with ⟨rfl, rfl⟩ | ⟨rfl, rfl⟩
    all_goals
      cases hr; cases hc
      exact ⟨fun h => (by cases h), fun h => (by cases h)⟩
  · exact ⟨⟨fun c h => by cases h; exact ⟨rfl, fun h => by cases h⟩, trivial⟩, trivial⟩

theorem Ex.two_ready (g : Field) (w : Val) (h : Involves Ex.env .outbound Ex.two Ex.twoValue g w) : TextReady Ex.env g w := by
  rcases Ex.two_involves h with ⟨rfl, rfl⟩ | rfl <;> trivial

theorem Ex.two_orderly {v : Val} (hv : ∀ d, v = .dict d → (d.map (·.1)).Nodup) (g : Field) (w : Val)
    (h : Involves Ex.env .inbound Ex.two v g w) : Orderly Ex.env .inbound true g w := by
  rcases Ex.two_involves h with ⟨rfl, rfl⟩ | rfl
  · exact ⟨fun c h => by cases h; rfl, (by decide : (visited [(c!"b", Field.undef 0), (c!"a", .undef 0)] []).Nodup), hv⟩
  · exact ⟨fun c h => by cases h; rfl, trivial⟩

theorem Ex.two_texted : Texted Ex.env Ex.twoValue (.dict Ex.twoTexts) :=
  Texted.dict (es := [(c!"b", .int 1, .str c!"1"), (c!"a", .int 2, .str c!"2")]) (by
    intro e he
    simp only [List.mem_cons, List.not_mem_nil, or_false] at he
    rcases he with rfl | rfl
    · exact .int 1
    · exact .int 2)

example : ∃ text, serializeTo Ex.env 2 Ex.two (urlOps Ex.env) Ex.twoValue [] = .ok text ∧
    ReadBack Ex.env 2 Ex.two (urlOps Ex.env) text Ex.twoValue :=
  C69_query _ (by intro d w d' h; cases h; rfl) 2 _ _ _ _ [] Ex.two_faithful Ex.two_ready rfl Ex.two_texted (by simp [Ex.twoTexts])
    (by
      intro e he
      simp only [Ex.twoTexts, List.mem_cons, List.not_mem_nil, or_false] at he
      rcases he with rfl | rfl
      all_goals exact .inr (.inr (.inl ⟨_, rfl, by decide, by rintro (h | h | h) <;> exact absurd h (by decide)⟩)))
    (Ex.two_orderly fun d h => by cases h; simp [Ex.twoTexts])

example : serializeTo Ex.env 2 Ex.two (urlOps Ex.env) Ex.twoValue [] = .ok c!"b=1&a=2" ∧
    serializeTo Ex.env 2 Ex.two (stOps Ex.env false) Ex.twoValue [] = .ok c!"{a:2,b:1}" ∧
    unserializeFrom Ex.env 2 Ex.two (stOps Ex.env false) c!"{a:2,b:1}" [] = .ok Ex.twoValue := ⟨rfl, rfl, rfl⟩

theorem Ex.two_writable : Writable Ex.env true Ex.twoValue := by
  refine .dict (by simp) ?_ ?_ ?_
  · intro e he
    simp only [List.mem_cons, List.not_mem_nil, or_false] at he
    rcases he with rfl | rfl
    all_goals exact ⟨_, rfl, .plain (by decide) .nil, by decide, by decide, by decide, by decide, by decide, by decide⟩
  · rintro ⟨e, he, h⟩
    simp only [List.mem_cons, List.not_mem_nil, or_false] at he
    rcases he with rfl | rfl <;> rcases h with ⟨_, h⟩ | ⟨_, h⟩ <;> cases h
  · intro e he
    simp only [List.mem_cons, List.not_mem_nil, or_false] at he
    rcases he with rfl | rfl <;> exact .int _ rfl

example : ∃ text, serializeTo Ex.env 2 Ex.two (stOps Ex.env true) Ex.twoValue [] = .ok text ∧
    ReadBack Ex.env 2 Ex.two (stOps Ex.env true) text Ex.twoValue :=
  C69_structured_numbers _ (by intro d w d' h; cases h; rfl) 2 _ _ Ex.twoValue [] Ex.two_faithful rfl (.inr ⟨_, rfl⟩) Ex.two_writable
    (Ex.two_orderly fun d h => by cases h; simp)

theorem Ex.two_texts_writable : Writable Ex.env false (.dict Ex.twoTexts) := by
  refine .dict (by simp [Ex.twoTexts]) ?_ ?_ ?_
  · intro e he
    simp only [Ex.twoTexts, List.mem_cons, List.not_mem_nil, or_false] at he
    rcases he with rfl | rfl
    all_goals exact ⟨_, rfl, .plain (by decide) .nil, by decide, by decide, by decide, by decide, by decide, by decide⟩
  · rintro ⟨e, he, h⟩
    simp only [Ex.twoTexts, List.mem_cons, List.not_mem_nil, or_false] at he
    rcases he with rfl | rfl <;> rcases h with ⟨_, h⟩ | ⟨_, h⟩ <;> cases h
  · intro e he
    have hd : ∀ c : Char, c = '1' ∨ c = '2' → Writable Ex.env false (.str [c]) := by
      rintro c (rfl | rfl)
      all_goals
        refine .text ⟨.plain (by decide) .nil, by decide, by rintro (h | h | h) <;> exact absurd h (by decide), ?_, fun h => nomatch h⟩
        rintro ⟨n, h⟩
        have := congrArg List.length h
        simp at this
    simp only [Ex.twoTexts, List.mem_cons, List.not_mem_nil, or_false] at he
    rcases he with rfl | rfl
    · exact hd _ (.inl rfl)
    · exact hd _ (.inr rfl)

example : ∃ text, serializeTo Ex.env 2 Ex.two (stOps Ex.env false) Ex.twoValue [] = .ok text ∧
    ReadBack Ex.env 2 Ex.two (stOps Ex.env false) text Ex.twoValue :=
  C69_structured_text _ (by intro d w d' h; cases h; rfl) 2 _ _ _ _ [] Ex.two_faithful Ex.two_ready rfl Ex.two_texted (.inr ⟨_, rfl⟩)
    Ex.two_texts_writable (Ex.two_orderly fun d h => by cases h; simp [Ex.twoTexts])

theorem Ex.two_xml : XmlValue Ex.env Ex.two Ex.twoValue := by
  refine .structure (fun _ => Ex.int) (by simp) ?_ ?_
  · intro e he
    simp only [List.mem_cons, List.not_mem_nil, or_false] at he
    rcases he with rfl | rfl
    all_goals exact ⟨_, _, rfl, isXmlName_iff.1 (by decide), rfl, rfl⟩
  · intro e he k _
    simp only [List.mem_cons, List.not_mem_nil, or_false] at he
    rcases he with rfl | rfl <;> exact .integer

example : ∃ text, serializeTo Ex.env 2 Ex.two (xmlOps Ex.env 3 true) Ex.twoValue [] = .ok text ∧
    ReadBack Ex.env 2 Ex.two (xmlOps Ex.env 3 true) text Ex.twoValue :=
  C69_xml _ (by intro d w d' h; cases h; rfl) 2 3 true _ _ Ex.twoValue [] Ex.two_faithful rfl Ex.two_xml (isXmlName_iff.1 (by decide))
    (by decide) (Ex.two_orderly fun d h => by cases h; simp)

theorem Ex.two_yaml [Yaml.Floats] : Yaml.Carries Ex.env 0 Ex.twoValue := by
  refine .dict (by simp) ?_ ?_
  · intro e he
    simp only [List.mem_cons, List.not_mem_nil, or_false] at he
    rcases he with rfl | rfl
    all_goals
      refine ⟨_, rfl, ?_, by decide, notSpecial_of (by decide) (by decide) (by decide), ⟨by decide, by decide, by decide, by decide, rfl⟩, ?_⟩
      · refine ⟨by decide, fun c hc => ?_⟩
        cases List.mem_singleton.1 hc
        decide
      · intro c hc
        simp only [List.head?_cons, Option.some.injEq] at hc
        subst hc
        decide
  · intro e he
    simp only [List.mem_cons, List.not_mem_nil, or_false] at he
    rcases he with rfl | rfl <;> exact .int _

example [Yaml.Floats] (wrap : Str → Str → List Str) (load : Str → Except Exn Val) (hl : ∀ m t w, Yaml.read m t = some w → load t = .ok w) :
    ∃ text, serializeTo Ex.env 2 Ex.two (yamlOps Ex.env wrap load) Ex.twoValue [] = .ok text ∧
      ReadBack Ex.env 2 Ex.two (yamlOps Ex.env wrap load) text Ex.twoValue :=
  C69_yaml _ (by intro d w d' h; cases h; rfl) wrap load hl 2 _ _ Ex.twoValue [] Ex.two_faithful rfl Ex.two_yaml
    (Ex.two_orderly fun d h => by cases h; simp)

/-! ### what is not covered -/

/-- C69. An empty text is dropped from a query string: a required member is then missing. -/
theorem C69_query_blank :
    let f : Field := .structure {} [(c!"a", .leaf { required := true } (.text none none none true))] true []
    let v : Val := .dict [(.str c!"a", .str [])]
    process Ex.env 2 f v .inbound false [] = .ok v ∧ serializeTo Ex.env 2 f (urlOps Ex.env) v [] = .ok c!"a=" ∧
      ∃ e, unserializeFrom Ex.env 2 f (urlOps Ex.env) c!"a=" [] = .error e :=
  ⟨rfl, rfl, _, rfl⟩

end Scheme
