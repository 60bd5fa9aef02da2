import Verif.Spec.WireJson
import Verif.Props.WireBy
import Verif.Props.JsonRead
import Verif.Props.StructuredText
import Verif.Props.Clone

/-! C57: what is read from JSON can be written to JSON and is read back. -/

namespace Scheme
open Json

/-! ### what JSON reads is JSON data -/

theorem lastValue_mem {k : Str} {ps : List (Str × Val)} {v : Val} (h : lastValue k ps = some v) : ∃ p ∈ ps, p.2 = v := by
  induction ps with
  | nil => cases h
  | cons p r ih =>
    obtain ⟨k', w⟩ := p
    simp only [lastValue] at h
    cases hr : lastValue k r with
    | some x =>
      rw [hr] at h
      cases h
      obtain ⟨p, hp, e⟩ := ih hr
      exact ⟨p, List.mem_cons_of_mem _ hp, e⟩
    | none =>
      rw [hr] at h
      simp only [Option.none_or] at h
      split at h
      · cases h; exact ⟨_, List.mem_cons_self, rfl⟩
      · cases h

theorem carries_list {env : Env} {l : List Val} (h : ∀ x ∈ l, Carries env x x) : Carries env (.list l) (.list l) := by
  have := Carries.list (env := env) (ps := l.map fun x => (x, x)) (by
    intro p hp
    obtain ⟨x, hx, rfl⟩ := List.mem_map.1 hp
    exact h x hx)
  simpa [List.map_map, Function.comp_def] using this

theorem carries_collected {env : Env} {ps : List (Str × Val)} (h : ∀ p ∈ ps, Carries env p.2 p.2) :
    Carries env (collected ps) (collected ps) := by
  have := Carries.dict (env := env)
    (es := (firsts (ps.map (·.1))).map fun k => ((Val.str k, k), (lastValue k ps).getD .none, (lastValue k ps).getD .none))
    (by rw [List.map_map]; simpa [Function.comp_def] using firsts_nodup _)
    (by
      intro e he
      obtain ⟨k, _, rfl⟩ := List.mem_map.1 he
      exact .str k)
    (by
      intro e he
      obtain ⟨k, _, rfl⟩ := List.mem_map.1 he
      cases hl : lastValue k ps with
      | none => exact .none
      | some v =>
        obtain ⟨p, hp, rfl⟩ := lastValue_mem hl
        exact h p hp)
  unfold collected
  simpa [List.map_map, Function.comp_def] using this

mutual
/-- What JSON reads is carried by JSON unchanged. -/
theorem jText_carried {env : Env} (hfl : FloatTexts env) {t : Str} {v : Val} (h : JText env t v) : Carries env v v := by
  cases h with
  | null => exact .none
  | true => exact .bool _
  | false => exact .bool _
  | nan => exact .float trivial
  | infinity => exact .float trivial
  | minusInfinity => exact .float trivial
  | natural h => exact .int _
  | negative h => exact .int _
  | real h1 h2 => exact .float (hfl _ _ h2)
  | text h => exact .str _
  | emptyList => exact carries_list (by simp)
  | list _ hl => exact carries_list (jItems_carried hfl hl)
  | emptyDict => exact carries_collected (ps := []) (by simp)
  | dict _ hl => exact carries_collected (jPairs_carried hfl hl)
termination_by 2 * t.length
decreasing_by all_goals (simp only [List.length_cons, List.length_append, List.length_nil]; omega)
theorem jItems_carried {env : Env} (hfl : FloatTexts env) {t : Str} {l : List Val} (h : JItems env t l) : ∀ x ∈ l, Carries env x x := by
  cases h with
  | one ht hw =>
    have := jText_carried hfl ht
    simpa using this
  | more ht hw hw' hl =>
    have h1 := jText_carried hfl ht
    have h2 := jItems_carried hfl hl
    intro x hx
    rcases List.mem_cons.1 hx with rfl | hx
    · exact h1
    · exact h2 x hx
termination_by 2 * t.length + 1
decreasing_by all_goals (simp only [List.length_cons, List.length_append, List.length_nil]; omega)
theorem jPairs_carried {env : Env} (hfl : FloatTexts env) {t : Str} {ps : List (Str × Val)} (h : JPairs env t ps) :
    ∀ p ∈ ps, Carries env p.2 p.2 := by
  cases h with
  | one hk hw hw' ht hw'' =>
    have := jText_carried hfl ht
    simpa using this
  | more hk hw hw' ht hw'' hw3 hl =>
    have h1 := jText_carried hfl ht
    have h2 := jPairs_carried hfl hl
    intro p hp
    rcases List.mem_cons.1 hp with rfl | hp
    · exact h1
    · exact h2 p hp
termination_by 2 * t.length + 1
decreasing_by all_goals (simp only [List.length_cons, List.length_append, List.length_nil]; omega)
end

/-! ### its parts are -/

theorem self_pairs {ps : List (Val × Val)} {l : List Val} (h1 : ps.map (·.1) = l) (h2 : ps.map (·.2) = l) : ∀ x ∈ l, (x, x) ∈ ps := by
  induction ps generalizing l with
  | nil => cases h1; intro x hx; cases hx
  | cons p r ih =>
    subst h1
    simp only [List.map_cons, List.cons.injEq] at h2
    intro x hx
    rcases List.mem_cons.1 hx with rfl | hx
    · exact (by obtain ⟨a, b⟩ := p; simp only at h2; rw [h2.1]; exact List.mem_cons_self)
    · exact List.mem_cons_of_mem _ (ih rfl h2.2 x hx)

theorem carries_items {env : Env} {l : List Val} (h : Carries env (.list l) (.list l)) : ∀ x ∈ l, Carries env x x := by
  have key : ∀ v w, Carries env v w → v = .list l → w = .list l → ∀ x ∈ l, Carries env x x := by
    intro v w h hv hw
    cases h with
    | list h => exact fun x hx => h _ (self_pairs (Val.list.inj hv) (Val.list.inj hw) x hx)
    | _ => cases hv
  exact key _ _ h rfl rfl

theorem carries_entries {env : Env} {d : List (Val × Val)} (h : Carries env (.dict d) (.dict d)) :
    ∀ e ∈ d, (∃ s, e.1 = .str s) ∧ Carries env e.2 e.2 := by
  have each : ∀ (es : List ((Val × Str) × Val × Val)) (d : List (Val × Val)), (∀ e ∈ es, Carries env e.2.1 e.2.2) →
      (es.map fun e => (e.1.1, e.2.1)) = d → (es.map fun e => (Val.str e.1.2, e.2.2)) = d →
      ∀ x ∈ d, (∃ s, x.1 = .str s) ∧ Carries env x.2 x.2 := by
    intro es
    induction es with
    | nil => rintro d _ rfl _ x hx; cases hx
    | cons a r ih =>
      rintro d h rfl e x hx
      simp only [List.map_cons, List.cons.injEq, Prod.mk.injEq] at e
      rcases List.mem_cons.1 hx with rfl | hx
      · refine ⟨⟨_, e.1.1.symm⟩, ?_⟩
        have := h a List.mem_cons_self
        rw [e.1.2] at this
        exact this
      · exact ih _ (fun y hy => h y (List.mem_cons_of_mem _ hy)) rfl e.2 x hx
  have key : ∀ v w, Carries env v w → v = .dict d → w = .dict d → ∀ e ∈ d, (∃ s, e.1 = .str s) ∧ Carries env e.2 e.2 := by
    intro v w h hv hw
    cases h with
    | dict _ _ h => exact each _ d h (Val.dict.inj hv) (Val.dict.inj hw)
    | _ => cases hv
  exact key _ _ h rfl rfl

theorem carries_arriving {env : Env} {u x : Val} (hx : OccursIn x u) (h : Carries env u u) : Carries env x x := by
  induction hx with
  | here => exact h
  | list hm _ ih => exact ih (carries_items h _ hm)
  | tuple hm _ ih => exact nomatch h
  | key hm _ ih =>
    obtain ⟨⟨s, hs⟩, _⟩ := carries_entries h _ hm
    exact ih (hs ▸ .str s)
  | value hm _ ih => exact ih (carries_entries h _ hm).2

theorem carries_Arriving {env : Env} {u : Val} (h : Carries env u u) : Arriving u :=
  ⟨fun _ hx => (by have := carries_arriving hx h; cases this), fun _ hx => (by have := carries_arriving hx h; cases this),
    fun _ hx => (by have := carries_arriving hx h; cases this)⟩

/-! ### fields -/

/-- Defaults of leaves that are no JSON data. -/
def JsonOther (f : Field) (v : Val) : Prop :=
  match f with
  | .leaf _ (.date ..) | .leaf _ (.time ..) | .leaf _ (.datetime ..) | .leaf _ (.decimal ..) => ArrivingAt f v
  | _ => False

theorem json_parts (env : Env) : PartsAdmitted (fun v => Carries env v v) JsonOther where
  list h hx := carries_items h _ hx
  tuple h _ := nomatch h
  value h he := (carries_entries h _ he).2
  other {g u} h := by
    cases g with
    | leaf c k => exact ⟨c, k, rfl⟩
    | _ => exact h.elim

theorem jsonOther_arriving {f : Field} {v : Val} (h : JsonOther f v) : ArrivingAt f v := by
  unfold JsonOther at h
  split at h <;> first | exact h | exact h.elim

/-- Any and Enumeration keep what they read. -/
theorem read_asis {env : Env} {c : Common} {k : Leaf} (hk : k = .any ∨ ∃ vals ign, k = .enumeration vals ign) (hpre : c.pre = none)
    {u v : Val} {a : List Str} (h : processLeaf env c k u .inbound true a = .ok v) : v = .none ∨ v = u := by
  rcases processLeaf_ok.1 h with ⟨_, rfl⟩ | ⟨hnull, v1, v2, v3, hd, hp, hconst, hv, he⟩
  · exact .inl rfl
  · right
    simp only [decodeStep, encodeStep, and_self, if_true, reduceCtorEq, and_false, if_false, Except.ok.injEq] at hd he
    subst he
    rcases hk with rfl | ⟨_, _, rfl⟩ <;>
    · simp only [preprocess, hpre, Except.ok.injEq] at hp
      subst hp
      have := validateLeaf_fixed (by simp [rewrites]) hv
      simp only [unserializeLeaf, Except.ok.injEq] at hd
      rw [this, hd]

theorem read_float {env : Env} {c : Common} {mn mx : Option PyFloat} (hpre : c.pre = none)
    {u v : Val} {a : List Str} (h : processLeaf env c (.float mn mx) u .inbound true a = .ok v) :
    v = .none ∨ ∃ x, v = .float x ∧ toFloat env u = some x := by
  rcases processLeaf_ok.1 h with ⟨_, rfl⟩ | ⟨hnull, v1, v2, v3, hd, hp, hconst, hv, he⟩
  · exact .inl rfl
  · right
    simp only [decodeStep, encodeStep, and_self, if_true, reduceCtorEq, and_false, if_false, Except.ok.injEq] at hd he
    simp only [preprocess, hpre, Except.ok.injEq] at hp
    subst he; subst hp
    have := validateLeaf_fixed (by simp [rewrites]) hv
    subst this
    simp only [unserializeLeaf] at hd
    split at hd
    · cases hd; exact ⟨_, rfl, by assumption⟩
    · cases hd

theorem jsonRereads_leaf {env : Env} {c : Common} {k : Leaf} (h : JsonRereads env (.leaf c k)) : Rereads env (.leaf c k) := by
  refine ⟨fun c' hc => ?_, ?_⟩
  · rcases h.1 c' hc with h | h
    · exact .inl (carries_Arriving h)
    · exact jsonOther_arriving h
  · have := h.2
    cases k <;> first | exact this | trivial

/-- The keys of a folded dict are keys that were set. -/
theorem keys_of_fold (es acc : List (Val × Val)) {e : Val × Val} (h : e ∈ es.foldl (fun a e => dictSet a e.1 e.2) acc)
    {P : Val → Prop} (hacc : ∀ x ∈ acc, P x.1) : (∃ e' ∈ es, e'.1 = e.1) ∨ P e.1 := by
  induction es generalizing acc P with
  | nil => exact .inr (hacc e h)
  | cons a r ih =>
    have step : ∀ x ∈ dictSet acc a.1 a.2, x.1 = a.1 ∨ P x.1 := by
      intro x hx
      rcases mem_dictSet hx with hx | ⟨_, h | ⟨_, y, hy⟩⟩
      · exact .inr (hacc x hx)
      · exact .inl h
      · exact .inr (hacc (x.1, y) hy)
    rcases ih (P := fun k => k = a.1 ∨ P k) _ h step with ⟨e', he', h⟩ | h | h
    · exact .inl ⟨e', List.mem_cons_of_mem _ he', h⟩
    · exact .inl ⟨a, List.mem_cons_self, h.symm⟩
    · exact .inr h

theorem float_read {env : Env} (hfl : FloatTexts env) (hn : FloatNumbers env) {u : Val} {x : PyFloat} (hu : Carries env u u)
    (hy : toFloat env u = some x) : FloatText env x := by
  obtain ⟨h1, h2, h3⟩ := hn
  cases u <;> simp only [toFloat, reduceCtorEq, Option.some.injEq] at hy
  case bool b =>
    subst hy
    cases b
    · exact h2
    · exact h3
  case int i => exact h1 _ _ hy
  case float y =>
    subst hy
    cases hu with
    | float h => exact h
  case str s => exact hfl _ _ hy
  case bytes b => cases hu
  case decimal d => cases hu

theorem json_wired {env : Env} (hz : ZoneLaw env) (hfl : FloatTexts env) {g : Field} (hs : Everywhere env (Settled env) g)
    (hn : Sends env g) (hj : JsonRereads env g) :
    WiredBy env (Carries env) (fun v => Carries env v v) JsonOther (JsonReady env) g where
  defaults c hc := by
    rcases hj.1 c hc with h | h
    · exact .inl h
    · exact .inr h
  leaves c k u v a hg hu h := by
    subst hg
    exact wire_leaf hz hs.here hn (jsonRereads_leaf hj) (hu.elim (fun h => .inl (carries_Arriving h)) jsonOther_arriving) h
  ready n u v a hu h := by
    cases n with
    | zero => cases h
    | succ n =>
    obtain ⟨hset, -⟩ := hs.here
    have hfix := C02_idempotent env hz _ g hs u v true a a h
    cases g with
    | leaf c k =>
      obtain ⟨hpre, -⟩ := hset c rfl
      have h' : processLeaf env c k u .inbound true a = .ok v := h
      cases k <;> try trivial
      case any =>
        have hu : Carries env u u := hu.elim (fun h => h) (fun h => h.elim)
        rcases read_asis (.inl rfl) hpre h' with rfl | rfl
        · exact .none
        · exact hu
      case binary => exact hj.2.elim
      case enumeration =>
        have hu : Carries env u u := hu.elim (fun h => h) (fun h => h.elim)
        rcases read_asis (.inr ⟨_, _, rfl⟩) hpre h' with rfl | rfl
        · exact .none
        · exact hu
      case float mn mx =>
        have hu : Carries env u u := hu.elim (fun h => h) (fun h => h.elim)
        intro m anc x hx
        rcases read_float hpre h' with rfl | ⟨y, rfl, hy⟩
        · cases m with
          | zero => cases hx
          | succ m => cases ((process_none_ok rfl).1 hx).1
        · have := carried_out (k := .float mn mx) trivial hfix hx
          cases this
          exact float_read hfl hj.2 hu hy
    | map c key value req =>
      obtain ⟨hpre, -⟩ := hset c rfl
      have hu : Carries env u u := hu.elim (fun h => h) (fun h => h.elim)
      rintro d rfl
      have hkeys : ∀ e ∈ d, ∃ k m a, KeyOk env m .inbound true a key (.str k) e.1 := by
        rcases (map_ok hpre).1 h with ⟨_, h, _⟩ | ⟨d0, es, rfl, hlen, hes, out, ho, hout, _⟩
        · cases h
        cases ho
        subst hout
        intro e he
        have : ∀ e ∈ es.foldl (fun a e => dictSet a e.1 e.2) [], ∃ e' ∈ es, e'.1 = e.1 := fun e he => (keys_of_fold es [] he (P := fun _ => False) (by simp)).elim id False.elim
        obtain ⟨e', he', e1⟩ := this e he
        obtain ⟨i, hi⟩ := List.mem_iff_getElem?.1 he'
        have hil : i < d0.length := by rw [← hlen]; exact (List.getElem?_eq_some_iff.1 hi).1
        obtain ⟨k', r, e2, hk, _⟩ := hes i d0[i].1 d0[i].2 (List.getElem?_eq_getElem hil)
        rw [hi] at e2; cases e2
        obtain ⟨⟨t, ht⟩, _⟩ := carries_entries hu _ (List.getElem_mem hil)
        rw [ht] at hk
        exact ⟨t, _, _, (show k' = e.1 from e1) ▸ hk⟩
      cases key with
      | none =>
        left
        rintro ⟨k, x⟩ he m anc s hs
        cases hs
        exact ⟨_, rfl⟩
      | some kf =>
        have hskf : Settled env kf := hs _ (.step .key .refl)
        rcases hj.2 kf rfl with ⟨ck, mn, mx, rfl⟩ | ⟨ck, k, rfl, hk⟩
        · right
          refine ⟨⟨ck, mn, mx, rfl⟩, fun e he m anc s hs' => ?_⟩
          obtain ⟨t, m', a', hr⟩ := hkeys e he
          cases hr with
          | field _ hr =>
            have hty := typed_result rfl hskf hr (by simp)
            cases hs' with
            | field _ ho =>
              have := typed_written rfl hskf ho (by intro h; rw [h] at hty; simp [typeOf] at hty)
              cases s <;> simp [typeOf] at this
              exact ⟨_, rfl⟩
        · left
          intro e he m anc s hs'
          obtain ⟨t, m', a', hr⟩ := hkeys e he
          have hnt : nativeTypes (.leaf ck k) = some [.text] ∧ writtenTypes (.leaf ck k) = some [.text] := by
            cases k <;> first | exact hk.elim | exact ⟨rfl, rfl⟩
          cases hr with
          | field _ hr =>
            have hty := typed_result hnt.1 hskf hr (by simp)
            cases hs' with
            | field _ ho =>
              have := typed_written hnt.2 hskf ho (by intro h; rw [h] at hty; simp [typeOf] at hty)
              cases s <;> simp [typeOf] at this
              exact ⟨_, rfl⟩
    | union c fs => exact fun hv => C83_json env fs hj.2.1 hj.2.2 v hv
    | _ => trivial
  unions c fs hg v hv := by
    subst hg
    exact C83_json env fs hj.2.1 hj.2.2 v hv

/-- C57. What was read of JSON data can be written to JSON, and the text is read as the same value: no assumption on the values is
left, only on the schema. -/
theorem C57_data (env : Env) (hz : ZoneLaw env) (hfl : FloatTexts env) (n : Nat) (f : Field) (hs : Everywhere env (Settled env) f)
    (hn : Everywhere env (Sends env) f) (hj : Everywhere env (JsonRereads env) f) (u v : Val) (a0 : List Str)
    (hu : Carries env u u) (h : process env n f u .inbound true a0 = .ok v) :
    ∃ text, (∀ a1, serializeTo env n f (jsonOps env) v a1 = .ok text) ∧
      ∀ a2, unserializeFrom env n f (jsonOps env) text a2 = .ok v := by
  obtain ⟨s, s', h1, hc, h2⟩ := wire_by (json_carrier env)
    (fun _ _ _ _ _ _ hf hj h => ⟨_, leaf_carried hz hf hj h, fun _ _ => Iff.rfl⟩) (json_keys env) (json_parts env) hz n f hs hn
    (fun g hg => json_wired hz hfl (fun x hx => hs x (hg.trans' hx)) (hn g hg) (hj g hg)) u v a0 (.inl hu) h
  obtain ⟨t, h3, h4⟩ := C56_round_trip env hc
  refine ⟨t, fun a1 => by simp only [serializeTo, h1, except_bind_ok]; exact h3, fun a2 => ?_⟩
  simp only [unserializeFrom, jsonOps, h4, except_bind_ok]
  exact h2 a2

/-- C57. Whatever JSON document a field reads, the value can be written to JSON again, and is read back as the same value. -/
theorem C57_wire (env : Env) (hz : ZoneLaw env) (hfl : FloatTexts env) (n : Nat) (f : Field) (hs : Everywhere env (Settled env) f)
    (hn : Everywhere env (Sends env) f) (hj : Everywhere env (JsonRereads env) f) (text : Str) (v : Val) (a0 : List Str)
    (h : unserializeFrom env n f (jsonOps env) text a0 = .ok v) :
    ∃ text', (∀ a1, serializeTo env n f (jsonOps env) v a1 = .ok text') ∧
      ∀ a2, unserializeFrom env n f (jsonOps env) text' a2 = .ok v := by
  simp only [unserializeFrom, jsonOps] at h
  cases hr : jsonUnserialize env text with
  | error e => rw [hr] at h; cases h
  | ok u =>
    rw [hr, except_bind_ok] at h
    obtain ⟨_, _, _, _, _, _, ht⟩ := (C56_read env text u).1 hr
    exact C57_data env hz hfl n f hs hn hj u v a0 (jText_carried hfl ht) h

/-- C57. Values read from JSON that differ are written differently. -/
theorem C57_apart (env : Env) (hz : ZoneLaw env) (hfl : FloatTexts env) (n : Nat) (f : Field) (hs : Everywhere env (Settled env) f)
    (hn : Everywhere env (Sends env) f) (hj : Everywhere env (JsonRereads env) f) (t t' text : Str) (v v' : Val) (a b a' b' : List Str)
    (h : unserializeFrom env n f (jsonOps env) t a = .ok v) (h' : unserializeFrom env n f (jsonOps env) t' a' = .ok v')
    (hw : serializeTo env n f (jsonOps env) v b = .ok text) (hw' : serializeTo env n f (jsonOps env) v' b' = .ok text) : v = v' := by
  obtain ⟨x, h1, h2⟩ := C57_wire env hz hfl n f hs hn hj t v a h
  obtain ⟨x', h1', h2'⟩ := C57_wire env hz hfl n f hs hn hj t' v' a' h'
  have e := (h1 b).symm.trans hw
  have e' := (h1' b').symm.trans hw'
  cases e; cases e'
  exact Except.ok.inj ((h2 []).symm.trans (h2' []))

/-! ### A case: the ledger -/

theorem Ex.ledger_json : Everywhere Ex.env (JsonRereads Ex.env) Ex.ledger := by
  intro g hg
  rcases Ex.ledger_reach hg with rfl | rfl | rfl | rfl | rfl | hm
  · exact ⟨fun c hc => by cases hc; exact .inl .none, trivial⟩
  · exact ⟨fun c hc => by cases hc; exact .inl .none, trivial⟩
  · exact ⟨fun c hc => by cases hc; exact .inl .none, .inr ⟨_, rfl, by decide⟩⟩
  · refine ⟨fun c hc => ?_, .inr ⟨_, rfl, by decide⟩⟩
    cases hc
    exact .inr (.inr ⟨_, _, _, _, rfl, rfl, rfl, by unfold CalendarDate; decide, by unfold ClockTime; decide, rfl⟩)
  · refine ⟨fun c hc => by cases hc; exact .inl .none, Ex.mark_plain, Ex.mark_apart.2.1, ?_⟩
    refine Ex.mark_apart.2.2.imp_of_mem fun {f f'} _ hf' h g g' hg hg' => ?_
    obtain ⟨a, b, h1, h2, h3⟩ := h g g' hg hg'
    refine ⟨a, b, h1, h2, ?_⟩
    simp only [Ex.mark, List.mem_cons, List.not_mem_nil, or_false] at hf'
    rcases hf' with rfl | rfl | rfl <;> cases hg' <;> cases h2 <;> exact h3
  · simp only [Ex.mark, List.mem_cons, List.not_mem_nil, or_false] at hm
    rcases hm with rfl | rfl | rfl <;> exact ⟨fun c hc => by cases hc; exact .inl .none, trivial⟩

/-- Whatever JSON text the ledger reads, it writes the value to JSON and reads it back. -/
example (n : Nat) (text : Str) (v : Val) (h : unserializeFrom Ex.env n Ex.ledger (jsonOps Ex.env) text [] = .ok v) :
    ∃ text', (∀ a1, serializeTo Ex.env n Ex.ledger (jsonOps Ex.env) v a1 = .ok text') ∧
      ∀ a2, unserializeFrom Ex.env n Ex.ledger (jsonOps Ex.env) text' a2 = .ok v :=
  C57_wire Ex.env (fun d w d' h => by cases h; rfl) (fun _ _ h => nomatch h) n Ex.ledger Ex.ledger_settled Ex.ledger_sends Ex.ledger_json
    text v [] h

example : unserializeFrom Ex.env 4 Ex.ledger (jsonOps Ex.env) c!"[{\"mark\": 7, \"on\": \"1987-6-5\"}]" [] =
    .ok (.list [.dict [(.str c!"on", .date ⟨1987, 6, 5⟩),
        (.str c!"at", .datetime ⟨⟨2020, 1, 1⟩, ⟨0, 0, 0, 0⟩, some .utc⟩), (.str c!"mark", .int 7)]]) := rfl

/-! ### Another: numbers by number, with floats -/

/-- An environment that knows the floats without fraction, written `1.0`. -/
def Ex.realEnv : Env := { Ex.env with
  repr := fun v => match v with
    | .float (.fin q) => intStr q.num ++ c!".0"
    | _ => []
  floatOfStr := fun s => (parseInt Ex.chars (s.take (s.length - 2))).map fun i : Int => PyFloat.fin i }

theorem Ex.real_text (i : Int) : FloatText Ex.realEnv (.fin i) := by
  have hr : Ex.realEnv.repr (.float (.fin i)) = intStr i ++ c!".0" := rfl
  have hd : Digits c!"0" := ⟨by simp, by simp⟩
  refine ⟨?_, ?_⟩
  · rw [hr]
    cases i with
    | ofNat n => exact ⟨[], natStr n, c!".0", [], by simp [intStr], .inl rfl, natStr_json _, .inr ⟨_, hd, rfl⟩, .inl rfl, .inl (by simp)⟩
    | negSucc n => exact ⟨c!"-", natStr (n + 1), c!".0", [], by simp [intStr], .inr rfl, natStr_json _, .inr ⟨_, hd, rfl⟩, .inl rfl, .inl (by simp)⟩
  · rw [hr]
    have : (intStr i ++ c!".0").take ((intStr i ++ c!".0").length - 2) = intStr i := by simp
    show (parseInt Ex.chars ((intStr i ++ c!".0").take ((intStr i ++ c!".0").length - 2))).map _ = _
    rw [this, parseInt_intStr]
    rfl

theorem Ex.real_texts : FloatTexts Ex.realEnv := by
  intro s x h
  obtain ⟨i, _, rfl⟩ := Option.map_eq_some_iff.1 h
  exact Ex.real_text i

theorem Ex.real_numbers : FloatNumbers Ex.realEnv := by
  refine ⟨fun i x h => ?_, Ex.real_text 0, Ex.real_text 1⟩
  cases h
  exact Ex.real_text i

def Ex.real : Field := .leaf {} (.float none none)
def Ex.whatever : Field := .leaf {} .any
def Ex.readings : Field := .map {} (some Ex.int) (.tuple {} [Ex.real, Ex.whatever]) []

theorem Ex.readings_reach {g : Field} (h : Reach Ex.realEnv Ex.readings g) :
    g = Ex.readings ∨ g = Ex.int ∨ g = .tuple {} [Ex.real, Ex.whatever] ∨ g = Ex.real ∨ g = Ex.whatever := by
  have key : ∀ f g, Reach Ex.realEnv f g →
      (f = Ex.readings ∨ f = Ex.int ∨ f = .tuple {} [Ex.real, Ex.whatever] ∨ f = Ex.real ∨ f = Ex.whatever) →
      (g = Ex.readings ∨ g = Ex.int ∨ g = .tuple {} [Ex.real, Ex.whatever] ∨ g = Ex.real ∨ g = Ex.whatever) := by
    intro f g hr
    induction hr with
    | refl => exact id
    | step hc _ ih =>
      intro hf
      apply ih
      rcases hf with rfl | rfl | rfl | rfl | rfl
      · cases hc with
        | key => simp
        | value hr => cases hr; simp
      · cases hc
      · cases hc with
        | tuple hm hr =>
          simp only [List.mem_cons, List.not_mem_nil, or_false] at hm
          rcases hm with rfl | rfl <;> cases hr <;> simp
      · cases hc
      · cases hc
  exact key _ g h (.inl rfl)

example (n : Nat) (text : Str) (v : Val) (h : unserializeFrom Ex.realEnv n Ex.readings (jsonOps Ex.realEnv) text [] = .ok v) :
    ∃ text', (∀ a1, serializeTo Ex.realEnv n Ex.readings (jsonOps Ex.realEnv) v a1 = .ok text') ∧
      ∀ a2, unserializeFrom Ex.realEnv n Ex.readings (jsonOps Ex.realEnv) text' a2 = .ok v := by
  refine C57_wire Ex.realEnv (fun d w d' h => by cases h; rfl) Ex.real_texts n Ex.readings (fun g hg => ?_) (fun g hg => ?_) (fun g hg => ?_)
    text v [] h
  · rcases Ex.readings_reach hg with rfl | rfl | rfl | rfl | rfl <;>
      exact ⟨fun c hc => by cases hc; exact ⟨rfl, fun h => (by cases h)⟩, trivial⟩
  · rcases Ex.readings_reach hg with rfl | rfl | rfl | rfl | rfl
    · exact ⟨rfl, fun kf h => by cases h; exact ⟨_, _, rfl, trivial⟩⟩
    · trivial
    · rfl
    · trivial
    · trivial
  · rcases Ex.readings_reach hg with rfl | rfl | rfl | rfl | rfl
    · exact ⟨fun c hc => by cases hc; exact .inl .none, fun kf h => by cases h; exact .inl ⟨_, _, _, rfl⟩⟩
    · exact ⟨fun c hc => by cases hc; exact .inl .none, trivial⟩
    · exact ⟨fun c hc => by cases hc; exact .inl .none, trivial⟩
    · exact ⟨fun c hc => by cases hc; exact .inl .none, Ex.real_numbers⟩
    · exact ⟨fun c hc => by cases hc; exact .inl .none, trivial⟩

example : unserializeFrom Ex.realEnv 3 Ex.readings (jsonOps Ex.realEnv) c!"{\"1\": [2, [null, 3.0]], \"01\": [4.0, {}]}" [] =
    .ok (.dict [(.int 1, .tuple [.float (.fin 4), .dict []])]) := rfl

end Scheme
