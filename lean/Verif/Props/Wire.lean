import Verif.Spec.Wire
import Verif.Props.Sendable
import Verif.Props.Alternatives
import Verif.Props.Relax

/-! What is read can be written, and is read back as the same value. -/

namespace Scheme

theorem Arriving.part {v x : Val} (h : Arriving v) (hx : ∀ y, OccursIn y x → OccursIn y v) : Arriving x :=
  ⟨fun d hd => h.1 d (hx _ hd), fun d hd => h.2.1 d (hx _ hd), fun t ht => h.2.2 t (hx _ ht)⟩

/-- What a leaf makes of arriving data is carried entirely by the serialized form. -/
theorem wire_leaf {env : Env} (hz : ZoneLaw env) {c : Common} {k : Leaf} {u v : Val} {anc : List Str}
    (hs : Settled env (.leaf c k)) (hn : Sends env (.leaf c k)) (hr : Rereads env (.leaf c k))
    (hu : ArrivingAt (.leaf c k) u) (h : processLeaf env c k u .inbound true anc = .ok v) :
    Faithful env (.leaf c k) v := by
  refine ⟨hs, ?_⟩
  obtain ⟨hpre, -⟩ := hs.1 c rfl
  replace hr := hr.2
  rcases processLeaf_ok.1 h with ⟨_, rfl⟩ | ⟨hnull, v1, v2, v3, hd, hp, hconst, hv, he⟩
  · cases k <;> dsimp only <;> first | trivial | rfl | simp
  · simp only [decodeStep, encodeStep, and_self, if_true, reduceCtorEq, and_false, if_false, Except.ok.injEq] at hd he
    subst he
    cases k <;> first | trivial | exact hn.elim | exact hr.elim | skip
    case date mn mx =>
      have hp : v2 = v1 := by simp only [preprocess, hpre, Except.ok.injEq] at hp; exact hp.symm
      subst hp
      have hcal : ∃ d, v2 = .date d ∧ CalendarDate d := by
        rcases hu with hu | ⟨_, _, _, _, hf, _⟩
        · simp only [unserializeLeaf] at hd
          split at hd
          · cases hd; exact ⟨_, rfl, hu.2.1 _ .here⟩
          · exact absurd .here (hu.1 _)
          · split at hd
            · rename_i hp'
              cases hd
              exact ⟨_, rfl, ((parseDate_iff _ _ _).1 hp').2⟩
            · cases hd
          · cases hd
        · cases hf
      obtain ⟨d, rfl, hc⟩ := hcal
      obtain ⟨rfl, hv2⟩ := validate_date.1 hv
      refine ⟨fun _ h => (nomatch h), fun d' h => ?_⟩
      have := Val.date.inj h
      subst this
      refine ⟨hc, ?_⟩
      rcases hr with hr | ⟨m, hm, hy⟩
      · exact .inl hr
      · rcases hv2 with ⟨_, he, h1, _⟩ | ⟨_, he, _⟩
        · cases he
          have := h1 m hm
          unfold DateBefore at this
          right; omega
        · cases he
    case time mn mx =>
      have hp : v2 = v1 := by simp only [preprocess, hpre, Except.ok.injEq] at hp; exact hp.symm
      subst hp
      have hcal : ∃ d, v2 = .time d ∧ ClockTime d ∧ d.micro = 0 := by
        rcases hu with hu | ⟨_, _, _, _, hf, _⟩
        · simp only [unserializeLeaf] at hd
          split at hd
          · cases hd; exact ⟨_, rfl, hu.2.2 _ .here⟩
          · split at hd
            · rename_i hp'
              cases hd
              obtain ⟨⟨_, _, _, _, _, _, _, h0⟩, hc⟩ := (parseTime_iff _ _ _).1 hp'
              exact ⟨_, rfl, hc, h0⟩
            · cases hd
          · cases hd
        · cases hf
      obtain ⟨d, rfl, hc⟩ := hcal
      have := validateLeaf_fixed (by simp [rewrites]) hv
      subst this
      intro t h
      cases h
      exact hc
    case datetime mn mx utc =>
      have hutc : utc = true := hn
      subst hutc
      have hp : v2 = v1 := by simp only [preprocess, hpre, Except.ok.injEq] at hp; exact hp.symm
      subst hp
      have hcal : ∃ d, v2 = .datetime d ∧ d.tz = some .utc ∧ CalendarDate d.date ∧ ClockTime d.time ∧ d.time.micro = 0 := by
        rcases hu with hu | ⟨_, _, _, d, _, rfl, hd'⟩
        · simp only [unserializeLeaf] at hd
          split at hd
          · exact absurd .here (hu.1 _)
          · split at hd
            · rename_i hp'
              cases hd
              obtain ⟨⟨h1, _, _, _, _, _, _, _, _, _, _, _, _, _, _, _, h0⟩, h2, h3⟩ := (parseDateTime_iff _ _ _).1 hp'
              exact ⟨_, rfl, h1, h2, h3, h0⟩
            · cases hd
          · cases hd
        · simp only [unserializeLeaf, Except.ok.injEq] at hd
          exact ⟨d, hd.symm, hd'⟩
      obtain ⟨d, rfl, h1, h2, h3, h4⟩ := hcal
      obtain ⟨d1, d2, hd1, hnorm, rfl, hmin, _⟩ := validate_datetime.1 hv
      cases hd1
      have stay : ∀ {x y : PDateTime}, x.tz = some .utc → Normalized env true x y → y = x := by
        intro x y hx hxy
        rcases hxy with ⟨h, _⟩ | ⟨_, h⟩ | ⟨z, h, hz', _⟩
        · rw [hx] at h; cases h
        · exact h
        · rw [hx] at h; cases h; exact absurd rfl hz'
      have := stay h1 hnorm
      subst this
      intro d' hd' d'' hn'
      cases hd'
      have := stay h1 hn'
      subst this
      refine ⟨d'', rfl, h2, h3, ?_, h4⟩
      rcases hr with hr | ⟨m, hm, hy⟩
      · exact .inl hr
      · have := hmin m hm
        rw [key_moment] at this
        unfold MomentBefore DateBefore at this
        right; omega

/-- Folding keeps what every value has. -/
theorem foldl_dictSet_values {P : Val → Prop} (es acc : List (Val × Val)) (hacc : ∀ e ∈ acc, P e.2) (hes : ∀ e ∈ es, P e.2) :
    ∀ e ∈ es.foldl (fun a e => dictSet a e.1 e.2) acc, P e.2 := by
  induction es generalizing acc with
  | nil => exact hacc
  | cons a r ih =>
    refine ih _ (fun x hx => ?_) fun x hx => hes x (List.mem_cons_of_mem _ hx)
    rcases mem_dictSet hx with hx | ⟨h1, _⟩
    · exact hacc x hx
    · rw [h1]; exact hes a List.mem_cons_self

theorem foldl_dictSet_apart (es acc : List (Val × Val)) (hacc : DistinctKeys acc) :
    DistinctKeys (es.foldl (fun a e => dictSet a e.1 e.2) acc) := by
  induction es generalizing acc with
  | nil => exact hacc
  | cons a r ih => exact ih _ (dictSet_distinct hacc)

theorem list_choice_pairs {α β : Type} {l : List α} {P : α → β → Prop} (h : ∀ x ∈ l, ∃ y, P x y) :
    ∃ rs : List β, rs.length = l.length ∧ ∀ (i : Nat) x, l[i]? = some x → ∃ y, rs[i]? = some y ∧ P x y :=
  list_choice (P := fun _ => P) fun _ x hx => h x (List.mem_of_getElem? hx)

/-- The slots of a dict that was read can be written, and the written ones are read as they were. -/
theorem wire_slots {env : Env} {n : Nat} {defn : List (Str × Field)} {d : List (Val × Val)}
    {a0 : List Str} {order : List Str} {slots : List (Str × Option Val)} (hnd : order.Nodup)
    (h1 : slots.map (·.1) = order)
    (h2 : ∀ x ∈ slots, SlotOk env n defn d .inbound true false a0 x.1 x.2) {a3 : List Str}
    (hfix : ∀ x ∈ slots, SlotOk env n defn (slotDict slots) .inbound false false a3 x.1 x.2)
    (ih : ∀ name g c o u v a, Declares env defn name g c → (o = given d name) → memberInput c o .inbound false = some u →
      process env n g u .inbound true a = .ok v →
      ∃ s, (∀ a1, process env n g v .outbound true a1 = .ok s) ∧ ∀ a2, process env n g s .inbound true a2 = .ok v) :
    ∃ slots' : List (Str × Option Val), slots'.map (·.1) = order ∧
      (∀ a1, ∀ x ∈ slots', SlotOk env n defn (slotDict slots) .outbound true false a1 x.1 x.2) ∧
      ∀ a2, ∀ x ∈ slots, SlotOk env n defn (slotDict slots') .inbound true false a2 x.1 x.2 := by
  have one : ∀ x ∈ slots, ∃ y : Str × Option Val, y.1 = x.1 ∧
      (∀ a1, SlotOk env n defn (slotDict slots) .outbound true false a1 y.1 y.2) ∧
      ∀ a2 d', given d' x.1 = y.2 → SlotOk env n defn d' .inbound true false a2 x.1 x.2 := by
    intro x hx
    have hg := given_slotDict (h1 ▸ hnd) hx
    obtain ⟨g, c, hd, hm, hin⟩ := h2 x hx
    obtain ⟨g', c', hd', hm', hin'⟩ := hfix x hx
    have hsame : g' = g ∧ c' = c := by
      obtain ⟨f, e1, e2, e3⟩ := hd
      obtain ⟨f', e1', e2', e3'⟩ := hd'
      rw [e1] at e1'; cases e1'
      rw [e2] at e2'; cases e2'
      rw [e3] at e3'; cases e3'
      exact ⟨rfl, rfl⟩
    obtain ⟨rfl, rfl⟩ := hsame
    rw [hg] at hm' hin'
    obtain ⟨name, o⟩ := x
    simp only at hg hd hm hin hm' hin' hd' ⊢
    cases o with
    | none =>
      refine ⟨(name, none), rfl, fun _ => ⟨g', c', hd, ?_, .inl ⟨by rw [hg]; rfl, rfl⟩⟩, fun _ d' hd'' => ?_⟩
      · rw [hg]
        rintro ⟨_, _, hr, _⟩
        rcases hin' with ⟨hi, _⟩ | ⟨_, _, _, h, _⟩
        · exact hm' ⟨rfl, rfl, hr, hi⟩
        · cases h
      · refine ⟨g', c', hd, ?_, ?_⟩
        · rw [hd'']; exact hm'
        · rw [hd'']
          rcases hin' with h | ⟨_, _, _, h, _⟩
          · exact .inl h
          · cases h
    | some w =>
      rcases hin with ⟨_, h⟩ | ⟨u, w', hi, h, hp⟩
      · cases h
      · cases h
        obtain ⟨s, hs1, hs2⟩ := ih name g' c' _ u w _ hd rfl hi hp
        have hkeep : (c'.ignoreNull && w.isNone) = false := by
          rcases hin' with ⟨_, h⟩ | ⟨x, _, hi', _⟩
          · cases h
          · rw [memberInput_given] at hi'
            cases hb : (c'.ignoreNull && w.isNone) with
            | false => rfl
            | true => rw [hb] at hi'; cases hi'
        have hskeep : (c'.ignoreNull && s.isNone) = false := by
          cases hb : (c'.ignoreNull && s.isNone) with
          | false => rfl
          | true =>
            rw [Bool.and_eq_true] at hb
            have := (isNone_iff s).1 hb.2
            subst this
            have hw := hs2 []
            cases n with
            | zero => cases hw
            | succ n =>
              have hc : g'.common? = some c' := by obtain ⟨_, _, _, h⟩ := hd; exact h
              have := ((process_none_ok hc).1 hw).1
              subst this
              rw [hb.1] at hkeep; cases hkeep
        refine ⟨(name, some s), rfl, fun _ => ⟨g', c', hd, ?_, .inr ⟨w, s, ?_, rfl, hs1 _⟩⟩, fun _ d' hd'' => ⟨g', c', hd, ?_, .inr ⟨s, w, ?_, rfl, hs2 _⟩⟩⟩
        · rw [hg]; rintro ⟨h, _⟩; cases h
        · rw [hg, memberInput_given, hkeep]; rfl
        · rw [hd'']; rintro ⟨h, _⟩; cases h
        · rw [hd'', memberInput_given, hskeep]; rfl
  obtain ⟨slots', hlen, hall⟩ := list_choice_pairs one
  have hnames : slots'.map (·.1) = slots.map (·.1) := by
    apply List.ext_getElem?
    intro i
    rw [List.getElem?_map, List.getElem?_map]
    cases hx : slots[i]? with
    | none =>
      have : slots'[i]? = none := by rw [List.getElem?_eq_none_iff] at hx ⊢; omega
      rw [this]
    | some x =>
      obtain ⟨y, hy, e, _⟩ := hall i x hx
      rw [hy]
      simp [e]
  have hnd' : (slots'.map (·.1)).Nodup := by rw [hnames, h1]; exact hnd
  refine ⟨slots', hnames.trans h1, fun a1 y hy => ?_, fun a2 x hx => ?_⟩
  · obtain ⟨i, hi⟩ := List.mem_iff_getElem?.1 hy
    have hil : i < slots.length := by rw [← hlen]; exact (List.getElem?_eq_some_iff.1 hi).1
    obtain ⟨y', hy', _, h, _⟩ := hall i _ (List.getElem?_eq_getElem hil)
    rw [hi] at hy'; cases hy'
    exact h a1
  · obtain ⟨i, hi⟩ := List.mem_iff_getElem?.1 hx
    obtain ⟨y, hy, e, _, h⟩ := hall i x hi
    exact h a2 _ (by rw [← e]; exact given_slotDict hnd' (List.mem_of_getElem? hy))

theorem given_occurs {d : List (Val × Val)} {k : Str} {v : Val} (h : given d k = some v) : ∃ e ∈ d, e.2 = v := by
  unfold given at h
  obtain ⟨e, he, h⟩ := Option.map_eq_some_iff.1 h
  exact ⟨e, List.mem_of_find?_eq_some he, h⟩

/-- Leaves that carry values as they are write and read what they accept natively. -/
theorem carried_both {env : Env} (hz : ZoneLaw env) {n : Nat} {c : Common} {k : Leaf} {x : Val} {a : List Str} (hk : CarriedAsIs k)
    (hs : Settled env (.leaf c k)) (h : process env n (.leaf c k) x .inbound false a = .ok x) :
    (∀ a1, process env n (.leaf c k) x .outbound true a1 = .ok x) ∧ ∀ a2, process env n (.leaf c k) x .inbound true a2 = .ok x := by
  cases n with
  | zero => cases h
  | succ n =>
    have hsend : Sendable env (.leaf c k) x := by cases k <;> trivial
    have hfaith : Faithful env (.leaf c k) x := ⟨hs, by cases k <;> trivial⟩
    have h1 : ∀ a1, process env (n + 1) (.leaf c k) x .outbound true a1 = .ok x := by
      intro a1
      obtain ⟨s, hs'⟩ := leaf_sent hsend (show processLeaf env c k x .inbound false a1 = .ok x from (C71_accepts _ _ _ _ _ _ _ a a1).1 h)
      have hs' : process env (n + 1) (.leaf c k) x .outbound true a1 = .ok s := hs'
      rw [hs', carried_out hk h hs']
    refine ⟨h1, fun a2 => ?_⟩
    obtain ⟨w, hw⟩ := leaf_round hz hfaith (h1 [])
    obtain ⟨hw1, hw2⟩ := hw a2
    rw [C71_accepts _ _ _ _ _ _ _ a a2, hw2] at h
    cases h
    exact hw1

/-- C72. What was read of data from outside can be written, and is read back as the same value: no assumption on
the values is left, only on the schema. -/
theorem C72_wire (env : Env) (hz : ZoneLaw env) (n : Nat) (f : Field) (hs : Everywhere env (Settled env) f)
    (hn : Everywhere env (Sends env) f) (hr : Everywhere env (Rereads env) f) (u v : Val) (a0 : List Str)
    (hu : ArrivingAt f u) (h : process env n f u .inbound true a0 = .ok v) :
    ∃ s, (∀ a1, process env n f v .outbound true a1 = .ok s) ∧ ∀ a2, process env n f s .inbound true a2 = .ok v := by
  induction n generalizing f u v a0 with
  | zero => cases h
  | succ n ih =>
    have down : ∀ g, Child env f g → ∀ u v a, ArrivingAt g u → process env n g u .inbound true a = .ok v →
        ∃ s, (∀ a1, process env n g v .outbound true a1 = .ok s) ∧ ∀ a2, process env n g s .inbound true a2 = .ok v :=
      fun g hg u v a hu h => ih g (fun x hx => hs x (.step hg hx)) (fun x hx => hn x (.step hg hx))
        (fun x hx => hr x (.step hg hx)) u v a hu h
    have hfix := C02_idempotent env hz (n + 1) f hs u v true a0 a0 h
    have fixes : ∀ g, Child env f g → ∀ u v a, process env n g u .inbound true a = .ok v → ∀ a', process env n g v .inbound false a' = .ok v :=
      fun g hg u v a h a' => C02_idempotent env hz n g (fun x hx => hs x (.step hg hx)) u v true a a' h
    have members : ∀ (defn : List (Str × Field)) (d : List (Val × Val)), Arriving (.dict d) →
        (∀ name g c', Declares env defn name g c' → Child env f g) →
        ∀ name g c o u v a, Declares env defn name g c → (o = given d name) → memberInput c o .inbound false = some u →
        process env n g u .inbound true a = .ok v →
        ∃ s, (∀ a1, process env n g v .outbound true a1 = .ok s) ∧ ∀ a2, process env n g s .inbound true a2 = .ok v := by
      rintro defn d hd hch name g c o u v a hdec rfl hin hp
      refine down g (hch _ _ _ hdec) u v a ?_ hp
      cases hg : given d name with
      | none =>
        rw [hg, memberInput_absent] at hin
        simp only [Bool.false_eq_true, if_false, true_and] at hin
        split at hin
        · cases hin
          have hc : g.common? = some c := by obtain ⟨_, _, _, h⟩ := hdec; exact h
          exact (hr g (.step (hch _ _ _ hdec) .refl)).1 c hc
        · cases hin
      | some x =>
        rw [hg, memberInput_given] at hin
        split at hin
        · cases hin
        · cases hin
          obtain ⟨e, he, rfl⟩ := given_occurs hg
          exact .inl (hd.part fun y hy => .value he hy)
    cases f with
    | undef s => cases h
    | leaf c k =>
      have hf := wire_leaf hz hs.here hn.here hr.here hu h
      obtain ⟨s, h1, h2⟩ := C72_read_back env hz (n + 1) (.leaf c k) hs u v true a0 [] [] h fun g w hi => by
        cases hi with
        | here => exact ⟨sends_sendable hz hn.here ⟨_, _, hfix⟩, hf⟩
        | call hc _ => cases hc
      exact ⟨s, fun a1 => (C71_accepts _ _ _ _ _ _ _ [] a1).1 h1, fun a2 => (C71_accepts _ _ _ _ _ _ _ [] a2).1 h2⟩
    | union c fs =>
      have hua : Arriving u := by
        rcases hu with h | ⟨_, _, _, _, hf, _⟩
        · exact h
        · cases hf
      rcases union_ok.1 h with ⟨rfl, rfl, hnn⟩ | ⟨hv, pre, g, hpick⟩
      · exact ⟨.none, fun _ => union_ok.2 (.inl ⟨rfl, rfl, hnn⟩), fun _ => union_ok.2 (.inl ⟨rfl, rfl, hnn⟩)⟩
      · obtain ⟨hnull, happ⟩ := hs.here.2 n pre g u true _ v hv hpick
        by_cases hvn : v = .none
        · subst hvn
          have hnn := (hnull rfl).1
          exact ⟨.none, fun _ => union_ok.2 (.inl ⟨rfl, rfl, hnn⟩), fun _ => union_ok.2 (.inl ⟨rfl, rfl, hnn⟩)⟩
        · have happ := happ hvn
          obtain ⟨⟨f, post, rfl, hg⟩, hrej, hp⟩ := hpick
          obtain ⟨s, h1, h2⟩ := down g (.union (by simp) hg) u v _ (.inl hua) hp
          obtain ⟨hpl, hw⟩ := hr.here.2
          obtain ⟨g', hg', ht, hpl', hs'⟩ := hpl f (by simp)
          rw [hg] at hg'; cases hg'
          obtain ⟨wt, hwt⟩ := Option.isSome_iff_exists.1 (hw.1 f (by simp) g hg)
          have hst := typed_written hwt hs' (h1 []) hvn
          have hsn : s ≠ .none := typeOf_none fun e => (written_not_null hwt).1 (e ▸ hst)
          refine ⟨s, fun a1 => union_ok.2 (.inr ⟨hvn, pre, g, ⟨f, post, rfl, hg⟩, fun x hx => ?_, h1 _⟩),
            fun a2 => union_ok.2 (.inr ⟨hsn, pre, g, ⟨f, post, rfl, hg⟩, fun x hx => ?_, h2 _⟩)⟩
          · obtain ⟨y, hy, hry⟩ := happ (ancOr (.union c (pre ++ f :: post)) a1) x hx
            exact ⟨y, hy, rejects_out hry⟩
          · obtain ⟨y, hy, hty, hply, hsy⟩ := hpl x (by simp [hx])
            obtain ⟨a, b', haa, hb', hd⟩ := (List.pairwise_append.1 hw.2).2.2 x hx f (by simp) y g hy hg
            rw [hwt] at hb'; cases hb'
            cases n with
            | zero => cases hp
            | succ n => exact ⟨y, hy, read_rejects haa hsy hply hsn (hd _ (by rw [List.map_id]; exact hst))⟩
    | sequence c item mn mx u' =>
      have hua : Arriving u := by
        rcases hu with h | ⟨_, _, _, _, hf, _⟩
        · exact h
        · cases hf
      obtain ⟨hpre, hsu⟩ := hn.here
      rcases (seq_ok hpre).1 h with ⟨rfl, rfl, hnn⟩ | ⟨l, rs, rfl, rfl, hlen, h1, h2, h3, h4⟩
      · exact ⟨.none, fun _ => (seq_ok hpre).2 (.inl ⟨rfl, rfl, hnn⟩), fun _ => (seq_ok hpre).2 (.inl ⟨rfl, rfl, hnn⟩)⟩
      · have one : ∀ (i : Nat) r, rs[i]? = some r → ∃ s g, resolve env item = some g ∧
            (∀ a', process env n g r .inbound false a' = .ok r) ∧
            (∀ a1, process env n g r .outbound true a1 = .ok s) ∧ ∀ a2, process env n g s .inbound true a2 = .ok r := by
          intro i r hi
          have hil : i < l.length := by rw [← hlen]; exact (List.getElem?_eq_some_iff.1 hi).1
          obtain ⟨g, hg, hp⟩ := h3 i _ r (List.getElem?_eq_getElem hil) hi
          obtain ⟨s, e1, e2⟩ := down g (.item hg) _ r _ (.inl (hua.part fun y hy => .list (List.getElem_mem hil) hy)) hp
          exact ⟨s, g, hg, fixes g (.item hg) _ _ _ hp, e1, e2⟩
        obtain ⟨ss, hss, hall⟩ := list_choice one
        have fwd : ∀ (i : Nat) r s, rs[i]? = some r → ss[i]? = some s → ∃ g, resolve env item = some g ∧
            (∀ a', process env n g r .inbound false a' = .ok r) ∧
            (∀ a1, process env n g r .outbound true a1 = .ok s) ∧ ∀ a2, process env n g s .inbound true a2 = .ok r := by
          intro i r s hr' hs'
          obtain ⟨s', e, h⟩ := hall i r hr'
          rw [hs'] at e; cases e
          exact h
        refine ⟨.list ss, fun a1 => (seq_ok hpre).2 (.inr ⟨rs, ss, rfl, rfl, hss, by rwa [hlen], by rwa [hlen],
          fun i x r hx hy => ?_, fun hut => ?_⟩), fun a2 => (seq_ok hpre).2 (.inr ⟨ss, rs, rfl, rfl, hss.symm,
          by rwa [hss, hlen], by rwa [hss, hlen], fun i x r hx hy => ?_, h4⟩)⟩
        · obtain ⟨g, hg, _, e, _⟩ := fwd i x r hx hy
          exact ⟨g, hg, e _⟩
        · have : ss = rs := by
            apply List.ext_getElem hss
            intro i hi hi'
            obtain ⟨c', k, hg', hk⟩ := hsu hut
            obtain ⟨g, hg, e0, e, _⟩ := fwd i _ _ (List.getElem?_eq_getElem hi') (List.getElem?_eq_getElem hi)
            rw [hg] at hg'; cases hg'
            exact carried_out hk (e0 []) (e [])
          rw [this]
          exact h4 hut
        · obtain ⟨g, hg, _, _, e⟩ := fwd i r x hy hx
          exact ⟨g, hg, e _⟩
    | tuple c fs =>
      have hua : Arriving u := by
        rcases hu with h | ⟨_, _, _, _, hf, _⟩
        · exact h
        · cases hf
      have hpre : c.pre = none := hn.here
      rcases (tup_ok hpre).1 h with ⟨rfl, rfl, hnn⟩ | ⟨l, rs, hl, rfl, h1, h2, h3⟩
      · exact ⟨.none, fun _ => (tup_ok hpre).2 (.inl ⟨rfl, rfl, hnn⟩), fun _ => (tup_ok hpre).2 (.inl ⟨rfl, rfl, hnn⟩)⟩
      · have hocc : ∀ x ∈ l, Arriving x := by
          intro x hx
          refine hua.part fun y hy => ?_
          rcases hl with rfl | rfl
          · exact .list hx hy
          · exact .tuple hx hy
        have one : ∀ (i : Nat) r, rs[i]? = some r → ∃ s, ∀ f, fs[i]? = some f → ∃ g, resolve env f = some g ∧
            (∀ a1, process env n g r .outbound true a1 = .ok s) ∧ ∀ a2, process env n g s .inbound true a2 = .ok r := by
          intro i r hi
          have hil : i < l.length := by rw [← h2]; exact (List.getElem?_eq_some_iff.1 hi).1
          have hif : i < fs.length := by rw [← h1]; exact hil
          obtain ⟨g, r', hg, hr', hp⟩ := h3 i _ _ (List.getElem?_eq_getElem hif) (List.getElem?_eq_getElem hil)
          rw [hi] at hr'; cases hr'
          obtain ⟨s, e1, e2⟩ := down g (.tuple (List.getElem_mem hif) hg) _ r _ (.inl (hocc _ (List.getElem_mem hil))) hp
          refine ⟨s, fun f hf => ?_⟩
          rw [List.getElem?_eq_getElem hif] at hf; cases hf
          exact ⟨g, hg, e1, e2⟩
        obtain ⟨ss, hss, hall⟩ := list_choice one
        refine ⟨.tuple ss, fun a1 => (tup_ok hpre).2 (.inr ⟨rs, ss, .inr rfl, rfl, h2.trans h1, hss, fun i f x hf hx => ?_⟩),
          fun a2 => (tup_ok hpre).2 (.inr ⟨ss, rs, .inr rfl, rfl, (hss.trans h2).trans h1, hss.symm, fun i f x hf hx => ?_⟩)⟩
        · obtain ⟨s, hs', e⟩ := hall i x hx
          obtain ⟨g, hg, e1, _⟩ := e f hf
          exact ⟨g, s, hg, hs', e1 _⟩
        · have hil : i < rs.length := by rw [← hss]; exact (List.getElem?_eq_some_iff.1 hx).1
          obtain ⟨s, hs', e⟩ := hall i _ (List.getElem?_eq_getElem hil)
          rw [hx] at hs'; cases hs'
          obtain ⟨g, hg, _, e2⟩ := e f hf
          exact ⟨g, _, hg, List.getElem?_eq_getElem hil, e2 _⟩
    | map c key value req =>
      have hua : Arriving u := by
        rcases hu with h | ⟨_, _, _, _, hf, _⟩
        · exact h
        · cases hf
      obtain ⟨hpre, hk⟩ := hn.here
      rcases (map_ok hpre).1 h with ⟨rfl, rfl, hnn⟩ | ⟨d, es, rfl, hlen, hes, out, rfl, hout, hreq⟩
      · exact ⟨.none, fun _ => (map_ok hpre).2 (.inl ⟨rfl, rfl, hnn⟩), fun _ => (map_ok hpre).2 (.inl ⟨rfl, rfl, hnn⟩)⟩
      · rcases (map_ok hpre).1 hfix with ⟨h, _⟩ | ⟨d', es', hd', hlen', hes', out', hw', hout', -⟩
        · cases h
        cases hd'; cases hw'
        have hed : es' = out := foldl_dictSet_full hout'.symm hlen'
        subst hed
        have hdist : DistinctKeys es' := by rw [hout]; exact foldl_dictSet_apart _ _ .nil
        have hvals : ∀ e ∈ es', ∃ s g, resolve env value = some g ∧
            (∀ a1, process env n g e.2 .outbound true a1 = .ok s) ∧ ∀ a2, process env n g s .inbound true a2 = .ok e.2 := by
          rw [hout]
          refine foldl_dictSet_values (P := fun r => ∃ s g, resolve env value = some g ∧
            (∀ a1, process env n g r .outbound true a1 = .ok s) ∧ ∀ a2, process env n g s .inbound true a2 = .ok r) es [] (by simp) ?_
          intro e he
          obtain ⟨i, hi⟩ := List.mem_iff_getElem?.1 he
          have hil : i < d.length := by rw [← hlen]; exact (List.getElem?_eq_some_iff.1 hi).1
          obtain ⟨k', r, e1, _, _, g, st, hg, _, hp⟩ := hes i d[i].1 d[i].2 (List.getElem?_eq_getElem hil)
          rw [hi] at e1; cases e1
          obtain ⟨s, e1, e2⟩ := down g (.value hg) _ r _ (.inl (hua.part fun y hy => .value (List.getElem_mem hil) hy)) hp
          exact ⟨s, g, hg, e1, e2⟩
        have hkeys : ∀ e ∈ es', hashable e.1 = true ∧ (∃ st, keyStep env e.1 = .ok st) ∧
            ∀ a, KeyOk env n .outbound true a key e.1 e.1 ∧ KeyOk env n .inbound true a key e.1 e.1 := by
          rintro ⟨k, x⟩ he
          obtain ⟨i, hi⟩ := List.mem_iff_getElem?.1 he
          obtain ⟨k', r, e1, hk', hh, g, st, hg, hst, hp⟩ := hes' i k x hi
          rw [hi] at e1; cases e1
          refine ⟨hh, ⟨st, hst⟩, fun a => ?_⟩
          cases hk' with
          | text t => exact ⟨.text t, .text t⟩
          | field e1 e2 =>
            obtain ⟨c', k', rfl, hka⟩ := hk _ rfl
            obtain ⟨o1, o2⟩ := carried_both hz hka (hs _ (.step .key .refl)) e2
            exact ⟨.field e1 (o1 _), .field e1 (o2 _)⟩
        obtain ⟨qs, hq, hqs⟩ := list_choice_pairs (l := es') (P := fun (e q : Val × Val) => q.1 = e.1 ∧ ∃ g, resolve env value = some g ∧
            (∀ a1, process env n g e.2 .outbound true a1 = .ok q.2) ∧ ∀ a2, process env n g q.2 .inbound true a2 = .ok e.2)
          fun e he => by
            obtain ⟨s, g, hg, e1, e2⟩ := hvals e he
            exact ⟨(e.1, s), rfl, g, hg, e1, e2⟩
        have hqd : DistinctKeys qs := by
          unfold DistinctKeys at hdist ⊢
          rw [List.pairwise_iff_getElem] at hdist ⊢
          intro i j hi hj hij
          obtain ⟨q, e1, e2, _⟩ := hqs i _ (List.getElem?_eq_getElem (by omega))
          obtain ⟨q', e1', e2', _⟩ := hqs j _ (List.getElem?_eq_getElem (by omega))
          rw [List.getElem?_eq_getElem hi] at e1; cases e1
          rw [List.getElem?_eq_getElem hj] at e1'; cases e1'
          rw [e2, e2']
          exact hdist i j (by omega) (by omega) hij
        refine ⟨.dict qs, fun a1 => (map_ok hpre).2 (.inr ⟨es', qs, rfl, hq, fun i k x hi => ?_, qs, rfl, ?_, fun r hrq => ?_⟩),
          fun a2 => (map_ok hpre).2 (.inr ⟨qs, es', rfl, hq.symm, fun i k x hi => ?_, es', rfl, ?_, hreq⟩)⟩
        · obtain ⟨⟨k', s⟩, e1, rfl, g, hg, e2, _⟩ := hqs i _ hi
          obtain ⟨hh, ⟨st, hst⟩, hk1⟩ := hkeys _ (List.mem_of_getElem? hi)
          exact ⟨_, s, e1, (hk1 _).1, hh, g, st, hg, hst, e2 _⟩
        · rw [foldl_dictSet_new qs [] hqd (by simp)]; rfl
        · obtain ⟨hh, e, he, hpe⟩ := hreq r hrq
          obtain ⟨i, hi⟩ := List.mem_iff_getElem?.1 he
          obtain ⟨q, e1, e2, _⟩ := hqs i _ hi
          exact ⟨hh, q, List.mem_of_getElem? e1, by rw [e2]; exact hpe⟩
        · have hil : i < es'.length := by rw [← hq]; exact (List.getElem?_eq_some_iff.1 hi).1
          obtain ⟨⟨k', s⟩, e1, e0, g, hg, _, e2⟩ := hqs i _ (List.getElem?_eq_getElem hil)
          rw [hi] at e1; cases e1
          obtain ⟨hh, ⟨st, hst⟩, hk1⟩ := hkeys _ (List.getElem_mem hil)
          refine ⟨es'[i].1, es'[i].2, List.getElem?_eq_getElem hil, ?_, hh, g, st, hg, hst, e2 _⟩
          simp only at e0
          rw [e0]
          exact (hk1 _).2
        · rw [foldl_dictSet_new es' [] hdist (by simp)]; rfl
    | «structure» c defn strict ko =>
      have hua : Arriving u := by
        rcases hu with h | ⟨_, _, _, _, hf, _⟩
        · exact h
        · cases hf
      obtain ⟨hpre, hnd⟩ := hn.here
      rcases (struct_ok hpre hnd).1 h with ⟨rfl, rfl, hnn⟩ | ⟨d, rfl, hst, slots, h1, h2, rfl⟩
      · exact ⟨.none, fun _ => (struct_ok hpre hnd).2 (.inl ⟨rfl, rfl, hnn⟩), fun _ => (struct_ok hpre hnd).2 (.inl ⟨rfl, rfl, hnn⟩)⟩
      · have hch : ∀ name g c', Declares env defn name g c' → Child env (.structure c defn strict ko) g := by
          rintro name g c' ⟨f, hl, hg, _⟩
          exact .member (lookup_mem hl) hg
        have hag := slots_again (anc' := []) hz (h1 ▸ hnd) (fun name g c' hd => (hs.child (hch _ _ _ hd)).here)
          (fun name g c' v w a hd hp => fixes g (hch _ _ _ hd) v w a hp) h2
        obtain ⟨slots', e1, e2, e3⟩ := wire_slots hnd h1 h2 hag (members defn d hua hch)
        refine ⟨.dict (slotDict slots'), fun a1 => (struct_ok hpre hnd).2 (.inr ⟨_, rfl, fun _ e he => ?_, slots', e1, e2 _, rfl⟩),
          fun a2 => (struct_ok hpre hnd).2 (.inr ⟨_, rfl, fun _ e he => ?_, slots, h1, e3 _, rfl⟩)⟩
        · obtain ⟨x, hx, he⟩ := slotDict_keys he
          exact ⟨x.1, h1 ▸ List.mem_map.2 ⟨x, hx, rfl⟩, he⟩
        · obtain ⟨x, hx, he⟩ := slotDict_keys he
          exact ⟨x.1, (e1 ▸ List.mem_map.2 ⟨x, hx, rfl⟩ : x.1 ∈ visited defn ko), he⟩
    | poly c disc vs strict ko =>
      have hua : Arriving u := by
        rcases hu with h | ⟨_, _, _, _, hf, _⟩
        · exact h
        · cases hf
      obtain ⟨hpre, -⟩ := hs.here.1 c rfl
      obtain ⟨rfl, hdisc, hvs⟩ := hs.here.2
      obtain ⟨-, -, ⟨dc, dk, rfl, hdk⟩, -⟩ := hn.here
      have hnds : ∀ e ∈ vs, (e.2.map (·.1)).Nodup := fun e he => (hvs e.1 e.2 he).2.1
      rcases (poly_ok hpre hnds).1 h with ⟨rfl, rfl, hnn⟩ | ⟨d, raw, id, defn, rfl, hraw, hnn, hid, hh, hv, hne, hst, slots, h1, h2, rfl⟩
      · exact ⟨.none, fun _ => (poly_ok hpre hnds).2 (.inl ⟨rfl, rfl, hnn⟩), fun _ => (poly_ok hpre hnds).2 (.inl ⟨rfl, rfl, hnn⟩)⟩
      · obtain ⟨e, he, hde⟩ : ∃ e, vs.find? (fun e => pyEq id e.1) = some e ∧ e.2 = defn := by
          have hv' := hv
          unfold variantFor at hv'
          rwa [Option.map_eq_some_iff] at hv'
        obtain ⟨i, defn'⟩ := e
        simp only at hde
        subst hde
        have hmem : (i, defn') ∈ vs := List.mem_of_find?_eq_some he
        obtain ⟨hi, hnd, m, hlk, htag⟩ := hvs i defn' hmem
        have hidne : id ≠ .none := by
          rintro rfl
          have := List.find?_some he
          simp only at this
          cases i <;> simp [pyEq, numOf] at this hi
        have hch : ∀ name g c', Declares env defn' name g c' → Child env (.poly c (.leaf dc dk) vs strict []) g := by
          rintro name g c' ⟨f, hl, hg, _⟩
          exact .variant hmem (lookup_mem hl) hg
        have hag := slots_again (anc' := []) hz (h1 ▸ hnd) (fun name g c' hd => (hs.child (hch _ _ _ hd)).here)
          (fun name g c' v w a hd hp => fixes g (hch _ _ _ hd) v w a hp) h2
        obtain ⟨slots', e1, e2, e3⟩ := wire_slots hnd h1 h2 hag (members defn' d hua hch)
        have hidfix := fixes _ .disc _ _ _ hid
        obtain ⟨o1, o2⟩ := carried_both hz hdk (hs _ (.step .disc .refl)) (hidfix [])
        have hdm : (Field.leaf dc dk).name.getD [] ∈ defn'.map (·.1) := List.mem_map.2 ⟨_, lookup_mem hlk, rfl⟩
        have hslot : given (slotDict slots) ((Field.leaf dc dk).name.getD []) = some id := by
          have hdm' := hdm
          rw [← h1] at hdm'
          obtain ⟨x, hx, hxn⟩ := List.mem_map.1 hdm'
          have hg := given_slotDict (h1 ▸ hnd) hx
          rw [hxn] at hg
          rw [hg]
          obtain ⟨g, c', ⟨f, hl, hres, hc'⟩, _, hcase⟩ := h2 x hx
          rw [hxn, hlk] at hl
          cases hl
          rw [tag_resolve htag hdisc] at hres
          cases hres
          rw [hxn, hraw, memberInput_given] at hcase
          have : raw.isNone = false := by
            cases hr : raw.isNone
            · rfl
            · exact absurd ((isNone_iff _).1 hr) hnn
          rw [this] at hcase
          simp only [Bool.and_false, Bool.false_eq_true, if_false, reduceCtorEq, false_and, false_or, Option.some.injEq] at hcase
          obtain ⟨v, w, rfl, hw, hp⟩ := hcase
          rw [← tag_same htag hid hp]
          exact hw
        have hslot' : given (slotDict slots') ((Field.leaf dc dk).name.getD []) = some id := by
          have hdm' := hdm
          rw [← e1] at hdm'
          obtain ⟨x, hx, hxn⟩ := List.mem_map.1 hdm'
          have hg := given_slotDict (e1 ▸ hnd) hx
          rw [hxn] at hg
          rw [hg]
          obtain ⟨g, c', ⟨f, hl, hres, hc'⟩, _, hcase⟩ := e2 [] x hx
          rw [hxn, hlk] at hl
          cases hl
          rw [tag_resolve htag hdisc] at hres
          cases hres
          rw [hxn, hslot, memberInput_given] at hcase
          have : id.isNone = false := by
            cases hr : id.isNone
            · rfl
            · exact absurd ((isNone_iff _).1 hr) hidne
          rw [this] at hcase
          simp only [Bool.and_false, Bool.false_eq_true, if_false, reduceCtorEq, false_and, false_or, Option.some.injEq] at hcase
          obtain ⟨v, w, rfl, hw, hp⟩ := hcase
          rw [hw, tag_same htag (o1 _) hp]
        refine ⟨.dict (slotDict slots'), fun a1 => (poly_ok hpre hnds).2 (.inr ⟨_, id, id, defn', rfl, hslot, hidne, o1 _, hh, hv, hne,
            fun _ e he => ?_, slots', e1, e2 _, rfl⟩),
          fun a2 => (poly_ok hpre hnds).2 (.inr ⟨_, id, id, defn', rfl, hslot', hidne, o2 _, hh, hv, hne,
            fun _ e he => ?_, slots, h1, e3 _, rfl⟩)⟩
        · obtain ⟨x, hx, he⟩ := slotDict_keys he
          exact ⟨x.1, h1 ▸ List.mem_map.2 ⟨x, hx, rfl⟩, he⟩
        · obtain ⟨x, hx, he⟩ := slotDict_keys he
          exact ⟨x.1, e1 ▸ List.mem_map.2 ⟨x, hx, rfl⟩, he⟩

/-- C72. In these schemas values that were read and differ are written differently. -/
theorem C72_apart (env : Env) (hz : ZoneLaw env) (n : Nat) (f : Field) (hs : Everywhere env (Settled env) f)
    (hn : Everywhere env (Sends env) f) (hr : Everywhere env (Rereads env) f) (u u' v v' s : Val) (a b a' b' : List Str)
    (hu : ArrivingAt f u) (hu' : ArrivingAt f u') (h : process env n f u .inbound true a = .ok v)
    (h' : process env n f u' .inbound true a' = .ok v') (hw : process env n f v .outbound true b = .ok s)
    (hw' : process env n f v' .outbound true b' = .ok s) : v = v' := by
  obtain ⟨x, h1, h2⟩ := C72_wire env hz n f hs hn hr u v a hu h
  obtain ⟨x', h1', h2'⟩ := C72_wire env hz n f hs hn hr u' v' a' hu' h'
  have e := (h1 b).symm.trans hw
  have e' := (h1' b').symm.trans hw'
  cases e; cases e'
  exact Except.ok.inj ((h2 []).symm.trans (h2' []))

/-! ### A case: a list of entries, each with a day, a moment and either a flag or an amount -/

def Ex.epoch : PDateTime := ⟨⟨1970, 1, 1⟩, ⟨0, 0, 0, 0⟩, some .utc⟩

def Ex.entry : Field := .structure {} [
  (c!"on", .leaf { required := true } (.date (some ⟨1900, 1, 1⟩) none)),
  (c!"at", .leaf { default := .datetime ⟨⟨2020, 1, 1⟩, ⟨0, 0, 0, 0⟩, some .utc⟩ } (.datetime (some Ex.epoch) none true)),
  (c!"mark", .union {} Ex.mark)] true []

def Ex.ledger : Field := .sequence {} Ex.entry none none false

theorem Ex.ledger_reach {g : Field} (h : Reach Ex.env Ex.ledger g) : g = Ex.ledger ∨ g = Ex.entry ∨
    g = .leaf { required := true } (.date (some ⟨1900, 1, 1⟩) none) ∨
    g = .leaf { default := .datetime ⟨⟨2020, 1, 1⟩, ⟨0, 0, 0, 0⟩, some .utc⟩ } (.datetime (some Ex.epoch) none true) ∨
    g = .union {} Ex.mark ∨ g ∈ Ex.mark := by
  have key : ∀ f g, Reach Ex.env f g → (f = Ex.ledger ∨ f = Ex.entry ∨
      f = .leaf { required := true } (.date (some ⟨1900, 1, 1⟩) none) ∨
      f = .leaf { default := .datetime ⟨⟨2020, 1, 1⟩, ⟨0, 0, 0, 0⟩, some .utc⟩ } (.datetime (some Ex.epoch) none true) ∨
      f = .union {} Ex.mark ∨ f ∈ Ex.mark) → (g = Ex.ledger ∨ g = Ex.entry ∨
      g = .leaf { required := true } (.date (some ⟨1900, 1, 1⟩) none) ∨
      g = .leaf { default := .datetime ⟨⟨2020, 1, 1⟩, ⟨0, 0, 0, 0⟩, some .utc⟩ } (.datetime (some Ex.epoch) none true) ∨
      g = .union {} Ex.mark ∨ g ∈ Ex.mark) := by
    intro f g hr
    induction hr with
    | refl => exact id
    | step hc _ ih =>
      intro hf
      apply ih
      rcases hf with rfl | rfl | rfl | rfl | rfl | hf
      · cases hc with
        | item hr => cases hr; simp [Ex.entry]
      · cases hc with
        | member hm hr =>
          simp only [List.mem_cons, Prod.mk.injEq, List.not_mem_nil, or_false] at hm
          rcases hm with ⟨_, rfl⟩ | ⟨_, rfl⟩ | ⟨_, rfl⟩ <;> cases hr <;> simp
      · cases hc
      · cases hc
      · cases hc with
        | union hm hr =>
          have hm' := hm
          simp only [Ex.mark, List.mem_cons, List.not_mem_nil, or_false] at hm
          rcases hm with rfl | rfl | rfl <;> cases hr <;> simp only [hm', or_true]
      · simp only [Ex.mark, List.mem_cons, List.not_mem_nil, or_false] at hf
        rcases hf with rfl | rfl | rfl <;> cases hc
  exact key _ g h (.inl rfl)

theorem Ex.ledger_settled : Everywhere Ex.env (Settled Ex.env) Ex.ledger := by
  intro g hg
  rcases Ex.ledger_reach hg with rfl | rfl | rfl | rfl | rfl | hm
  · exact ⟨fun c hc => by cases hc; exact ⟨rfl, fun h => (by cases h)⟩, trivial⟩
  · exact ⟨fun c hc => by cases hc; exact ⟨rfl, fun h => (by cases h)⟩, by show List.Nodup _; decide⟩
  · exact ⟨fun c hc => by cases hc; exact ⟨rfl, fun h => (by cases h)⟩, trivial⟩
  · exact ⟨fun c hc => by cases hc; exact ⟨rfl, fun h => (by cases h)⟩, rfl⟩
  · exact ⟨fun c hc => by cases hc; exact ⟨rfl, fun h => (by cases h)⟩,
      C83_natives Ex.env {} Ex.mark Ex.mark_plain Ex.mark_apart.1⟩
  · obtain ⟨g', hg', _, _, hs⟩ := Ex.mark_plain g hm
    simp only [Ex.mark, List.mem_cons, List.not_mem_nil, or_false] at hm
    rcases hm with rfl | rfl | rfl <;> cases hg' <;> exact hs

theorem Ex.ledger_sends : Everywhere Ex.env (Sends Ex.env) Ex.ledger := by
  intro g hg
  rcases Ex.ledger_reach hg with rfl | rfl | rfl | rfl | rfl | hm
  · exact ⟨rfl, fun h => (by cases h)⟩
  · exact ⟨rfl, by decide⟩
  · trivial
  · rfl
  · trivial
  · simp only [Ex.mark, List.mem_cons, List.not_mem_nil, or_false] at hm
    rcases hm with rfl | rfl | rfl <;> trivial

theorem Ex.arriving_none : Arriving .none :=
  ⟨fun _ h => (nomatch h), fun _ h => (nomatch h), fun _ h => (nomatch h)⟩

theorem Ex.ledger_rereads : Everywhere Ex.env (Rereads Ex.env) Ex.ledger := by
  intro g hg
  rcases Ex.ledger_reach hg with rfl | rfl | rfl | rfl | rfl | hm
  · exact ⟨fun c hc => by cases hc; exact .inl Ex.arriving_none, trivial⟩
  · exact ⟨fun c hc => by cases hc; exact .inl Ex.arriving_none, trivial⟩
  · exact ⟨fun c hc => by cases hc; exact .inl Ex.arriving_none, .inr ⟨_, rfl, by decide⟩⟩
  · exact ⟨fun c hc => (by cases hc; exact .inr ⟨_, _, _, _, rfl, rfl, rfl, by unfold CalendarDate; decide, by unfold ClockTime; decide, rfl⟩), .inr ⟨_, rfl, by decide⟩⟩
  · exact ⟨fun c hc => by cases hc; exact .inl Ex.arriving_none, Ex.mark_plain, Ex.mark_apart.2⟩
  · simp only [Ex.mark, List.mem_cons, List.not_mem_nil, or_false] at hm
    rcases hm with rfl | rfl | rfl <;> exact ⟨fun c hc => by cases hc; exact .inl Ex.arriving_none, trivial⟩

/-- Whatever the ledger reads of data from outside, it writes and reads back. -/
example (n : Nat) (u v : Val) (hu : Arriving u) (h : process Ex.env n Ex.ledger u .inbound true [] = .ok v) :
    ∃ s, (∀ a1, process Ex.env n Ex.ledger v .outbound true a1 = .ok s) ∧
      ∀ a2, process Ex.env n Ex.ledger s .inbound true a2 = .ok v :=
  C72_wire Ex.env (fun d w d' h => by cases h; rfl) n Ex.ledger Ex.ledger_settled Ex.ledger_sends Ex.ledger_rereads u v []
    (.inl hu) h

def Ex.page : Val := .list [.dict [(.str c!"on", .str c!"1987-6-5"), (.str c!"mark", .str c!"  x ")]]

example : Arriving Ex.page ∧ process Ex.env 4 Ex.ledger Ex.page .inbound true [] =
      .ok (.list [.dict [(.str c!"on", .date ⟨1987, 6, 5⟩),
        (.str c!"at", .datetime ⟨⟨2020, 1, 1⟩, ⟨0, 0, 0, 0⟩, some .utc⟩), (.str c!"mark", .str c!"x")]]) ∧
    process Ex.env 4 Ex.ledger (.list [.dict [(.str c!"on", .date ⟨1987, 6, 5⟩),
        (.str c!"at", .datetime ⟨⟨2020, 1, 1⟩, ⟨0, 0, 0, 0⟩, some .utc⟩), (.str c!"mark", .str c!"x")]]) .outbound true [] =
      .ok (.list [.dict [(.str c!"on", .str c!"1987-06-05"), (.str c!"at", .str c!"2020-01-01T00:00:00Z"), (.str c!"mark", .str c!"x")]]) := by
  have key : ∀ x, OccursIn x Ex.page → (∃ l, x = .list l) ∨ (∃ l, x = .dict l) ∨ ∃ l, x = .str l := by
    intro x hx
    cases hx with
    | here => exact .inl ⟨_, rfl⟩
    | list hm hx =>
      simp only [List.mem_cons, List.not_mem_nil, or_false] at hm
      subst hm
      cases hx with
      | here => exact .inr (.inl ⟨_, rfl⟩)
      | key hm hx =>
        simp only [List.mem_cons, List.not_mem_nil, or_false] at hm
        rcases hm with rfl | rfl <;> cases hx <;> exact .inr (.inr ⟨_, rfl⟩)
      | value hm hx =>
        simp only [List.mem_cons, List.not_mem_nil, or_false] at hm
        rcases hm with rfl | rfl <;> cases hx <;> exact .inr (.inr ⟨_, rfl⟩)
  refine ⟨⟨fun d hd => ?_, fun d hd => ?_, fun t ht => ?_⟩, rfl, rfl⟩
  · rcases key _ hd with ⟨_, h⟩ | ⟨_, h⟩ | ⟨_, h⟩ <;> cases h
  · rcases key _ hd with ⟨_, h⟩ | ⟨_, h⟩ | ⟨_, h⟩ <;> cases h
  · rcases key _ ht with ⟨_, h⟩ | ⟨_, h⟩ | ⟨_, h⟩ <;> cases h

/-! ### The restrictions are needed -/

/-- A datetime object given to a Date field is kept when read, and written as a day. -/
theorem C72_native_fails :
    let f : Field := .leaf {} (.date none none)
    let u : Val := .datetime ⟨⟨2020, 1, 1⟩, ⟨1, 2, 3, 0⟩, none⟩
    process Ex.env 1 f u .inbound true [] = .ok u ∧ process Ex.env 1 f u .outbound true [] = .ok (.str c!"2020-01-01") ∧
    process Ex.env 1 f (.str c!"2020-01-01") .inbound true [] = .ok (.date ⟨2020, 1, 1⟩) := ⟨rfl, rfl, rfl⟩

/-- A default is read as well: a time with a fraction is not written entirely. -/
theorem C72_default_time_fails :
    let f : Field := .structure {} [(c!"t", .leaf { default := .time ⟨1, 2, 3, 4⟩ } (.time none none))] true []
    process Ex.env 2 f (.dict []) .inbound true [] = .ok (.dict [(.str c!"t", .time ⟨1, 2, 3, 4⟩)]) ∧
    process Ex.env 2 f (.dict [(.str c!"t", .time ⟨1, 2, 3, 4⟩)]) .outbound true [] = .ok (.dict [(.str c!"t", .str c!"01:02:03")]) ∧
    process Ex.env 2 f (.dict [(.str c!"t", .str c!"01:02:03")]) .inbound true [] = .ok (.dict [(.str c!"t", .time ⟨1, 2, 3, 0⟩)]) :=
  ⟨rfl, rfl, rfl⟩

/-- Where the platform does not pad years, early ones are not read back, unless the field excludes them. -/
theorem C72_year_fails :
    let f : Field := .leaf {} (.date none none)
    process Ex.env 1 f (.str c!"0987-06-05") .inbound true [] = .ok (.date ⟨987, 6, 5⟩) ∧
    process Ex.env 1 f (.date ⟨987, 6, 5⟩) .outbound true [] = .ok (.str c!"987-06-05") ∧
    ∃ e, process Ex.env 1 f (.str c!"987-06-05") .inbound true [] = .error e := ⟨rfl, rfl, _, rfl⟩

end Scheme
