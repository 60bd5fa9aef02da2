import Verif.Props.Wire
import Verif.Props.FieldFormat

/-! What is read can be written, carried by a format, and is read back as the same value. -/

namespace Scheme

/-- What is asked of each field of a schema for a format: defaults are admissible too, what is read can be carried, and what an
alternative of a union wrote is not read by an earlier one. `A` are the data of the format, `D` the other defaults of leaves. -/
structure WiredBy (env : Env) (C : Val → Val → Prop) (A : Val → Prop) (D P : Field → Val → Prop) (g : Field) : Prop where
  defaults : ∀ c, g.common? = some c → A c.default ∨ D g c.default
  leaves : ∀ c k u v a, g = .leaf c k → (A u ∨ D g u) → processLeaf env c k u .inbound true a = .ok v → Faithful env g v
  ready : ∀ n u v a, (A u ∨ D g u) → process env n g u .inbound true a = .ok v → P g v
  unions : ∀ c fs, g = .union c fs → ∀ v, v ≠ .none → CarriedApart env C fs v

/-- The parts of admissible data are admissible. -/
structure PartsAdmitted (A : Val → Prop) (D : Field → Val → Prop) : Prop where
  list : ∀ {l x}, A (.list l) → x ∈ l → A x
  tuple : ∀ {l x}, A (.tuple l) → x ∈ l → A x
  value : ∀ {d e}, A (.dict d) → e ∈ d → A e.2
  other : ∀ {g u}, D g u → ∃ c k, g = .leaf c k

/-- The slots of a dict that was read can be written, and the carried ones are read as they were. -/
theorem wire_slots_by {C : Val → Val → Prop} {K : Val → Str → Prop} (hC : Carrier C K)
    {env : Env} {n : Nat} {defn : List (Str × Field)} {d : List (Val × Val)}
    {a0 : List Str} {order : List Str} {slots : List (Str × Option Val)} (hnd : order.Nodup)
    (h1 : slots.map (·.1) = order)
    (h2 : ∀ x ∈ slots, SlotOk env n defn d .inbound true false a0 x.1 x.2) {a3 : List Str}
    (hfix : ∀ x ∈ slots, SlotOk env n defn (slotDict slots) .inbound false false a3 x.1 x.2)
    (ih : ∀ name g c o u v a, Declares env defn name g c → (o = given d name) → memberInput c o .inbound false = some u →
      process env n g u .inbound true a = .ok v →
      ∃ s s', (∀ a1, process env n g v .outbound true a1 = .ok s) ∧ C s s' ∧ ∀ a2, process env n g s' .inbound true a2 = .ok v) :
    ∃ slots' slots'' : List (Str × Option Val), slots'.map (·.1) = order ∧ slots''.map (·.1) = order ∧
      C (.dict (slotDict slots')) (.dict (slotDict slots'')) ∧
      (∀ a1, ∀ x ∈ slots', SlotOk env n defn (slotDict slots) .outbound true false a1 x.1 x.2) ∧
      (∀ a2, ∀ x ∈ slots, SlotOk env n defn (slotDict slots'') .inbound true false a2 x.1 x.2) ∧
      ∀ name s, given (slotDict slots') name = some s → ∃ s', given (slotDict slots'') name = some s' ∧ C s s' := by
  have one : ∀ x ∈ slots, ∃ y : Str × Option (Val × Val), y.1 = x.1 ∧ (∀ p, y.2 = some p → C p.1 p.2) ∧
      (∀ a1, SlotOk env n defn (slotDict slots) .outbound true false a1 y.1 (y.2.map (·.1))) ∧
      ∀ a2 d', given d' x.1 = y.2.map (·.2) → SlotOk env n defn d' .inbound true false a2 x.1 x.2 := by
    intro x hx
    have hg := given_slotDict (h1 ▸ hnd) hx
    obtain ⟨g, c, hd, hm, hin⟩ := h2 x hx
    obtain ⟨g', c', hd', hm', hin'⟩ := hfix x hx
    have hsame : g' = g ∧ c' = c := by
      obtain ⟨f, e1, e2, e3⟩ := hd
      obtain ⟨f', e1', e2', e3'⟩ := hd'
      rw [e1] at e1'; cases e1'
      rw [e2] at e2'; cases e2'
      rw [e3] at e3'; cases e3'
      exact ⟨rfl, rfl⟩
    obtain ⟨rfl, rfl⟩ := hsame
    rw [hg] at hm' hin'
    obtain ⟨name, o⟩ := x
    simp only at hg hd hm hin hm' hin' hd' ⊢
    cases o with
    | none =>
      refine ⟨(name, none), rfl, fun _ h => (nomatch h), fun _ => ⟨g', c', hd, ?_, .inl ⟨by rw [hg]; rfl, rfl⟩⟩, fun _ d' hd'' => ?_⟩
      · rw [hg]
        rintro ⟨_, _, hr, _⟩
        rcases hin' with ⟨hi, _⟩ | ⟨_, _, _, h, _⟩
        · exact hm' ⟨rfl, rfl, hr, hi⟩
        · cases h
      · simp only [Option.map_none] at hd''
        refine ⟨g', c', hd, ?_, ?_⟩
        · rw [hd'']; exact hm'
        · rw [hd'']
          rcases hin' with h | ⟨_, _, _, h, _⟩
          · exact .inl h
          · cases h
    | some w =>
      rcases hin with ⟨_, h⟩ | ⟨u, w', hi, h, hp⟩
      · cases h
      · cases h
        obtain ⟨s, s', hs1, hc, hs2⟩ := ih name g' c' _ u w _ hd rfl hi hp
        have hkeep : (c'.ignoreNull && w.isNone) = false := by
          rcases hin' with ⟨_, h⟩ | ⟨x, _, hi', _⟩
          · cases h
          · rw [memberInput_given] at hi'
            cases hb : (c'.ignoreNull && w.isNone) with
            | false => rfl
            | true => rw [hb] at hi'; cases hi'
        have hskeep : (c'.ignoreNull && s'.isNone) = false := by
          cases hb : (c'.ignoreNull && s'.isNone) with
          | false => rfl
          | true =>
            rw [Bool.and_eq_true] at hb
            have := (isNone_iff s').1 hb.2
            subst this
            have hw := hs2 []
            cases n with
            | zero => cases hw
            | succ n =>
              have hc : g'.common? = some c' := by obtain ⟨_, _, _, h⟩ := hd; exact h
              have := ((process_none_ok hc).1 hw).1
              subst this
              rw [hb.1] at hkeep; cases hkeep
        refine ⟨(name, some (s, s')), rfl, fun p hp => by cases hp; exact hc,
          fun _ => ⟨g', c', hd, ?_, .inr ⟨w, s, ?_, rfl, hs1 _⟩⟩, fun _ d' hd'' => ?_⟩
        · rw [hg]; rintro ⟨h, _⟩; cases h
        · rw [hg, memberInput_given, hkeep]; rfl
        · simp only [Option.map_some] at hd''
          refine ⟨g', c', hd, ?_, .inr ⟨s', w, ?_, rfl, hs2 _⟩⟩
          · rw [hd'']; rintro ⟨h, _⟩; cases h
          · rw [hd'', memberInput_given, hskeep]; rfl
  obtain ⟨ys, hlen, hall⟩ := list_choice_pairs one
  have hnames : ys.map (·.1) = slots.map (·.1) := by
    apply List.ext_getElem?
    intro i
    rw [List.getElem?_map, List.getElem?_map]
    cases hx : slots[i]? with
    | none =>
      have : ys[i]? = none := by rw [List.getElem?_eq_none_iff] at hx ⊢; omega
      rw [this]; rfl
    | some x =>
      obtain ⟨y, hy, e, _⟩ := hall i x hx
      rw [hy]
      simp [e]
  have hnd' : (ys.map (·.1)).Nodup := by rw [hnames, h1]; exact hnd
  have back : ∀ y ∈ ys, ∃ x ∈ slots, y.1 = x.1 ∧ (∀ p, y.2 = some p → C p.1 p.2) ∧
      (∀ a1, SlotOk env n defn (slotDict slots) .outbound true false a1 y.1 (y.2.map (·.1))) := by
    intro y hy
    obtain ⟨i, hi⟩ := List.mem_iff_getElem?.1 hy
    have hil : i < slots.length := by rw [← hlen]; exact (List.getElem?_eq_some_iff.1 hi).1
    obtain ⟨y', hy', e, hc, h, _⟩ := hall i _ (List.getElem?_eq_getElem hil)
    rw [hi] at hy'; cases hy'
    exact ⟨_, List.getElem_mem hil, e, hc, h⟩
  have n1 : (ys.map fun y => (y.1, y.2.map (·.1))).map (·.1) = ys.map (·.1) := by rw [List.map_map]; rfl
  have n2 : (ys.map fun y => (y.1, y.2.map (·.2))).map (·.1) = ys.map (·.1) := by rw [List.map_map]; rfl
  refine ⟨ys.map fun y => (y.1, y.2.map (·.1)), ys.map fun y => (y.1, y.2.map (·.2)), by rw [n1, hnames, h1], by rw [n2, hnames, h1],
    ?_, fun a1 x hx => ?_, fun a2 x hx => ?_, fun name s hs => ?_⟩
  · have key : ∀ ys : List (Str × Option (Val × Val)), ∃ es : List ((Val × Str) × Val × Val),
        slotDict (ys.map fun y => (y.1, y.2.map (·.1))) = (es.map fun e => (e.1.1, e.2.1)) ∧
        slotDict (ys.map fun y => (y.1, y.2.map (·.2))) = (es.map fun e => (.str e.1.2, e.2.2)) ∧
        (∀ e ∈ es, e.1.1 = .str e.1.2 ∧ ∃ y ∈ ys, y.2 = some e.2) ∧ es.map (·.1.2) = ys.filterMap fun y => y.2.map fun _ => y.1 := by
      intro ys
      induction ys with
      | nil => exact ⟨[], rfl, rfl, by simp, rfl⟩
      | cons y r ih =>
        obtain ⟨es, e1, e2, e3, e4⟩ := ih
        obtain ⟨name, o⟩ := y
        cases o with
        | none =>
          refine ⟨es, ?_, ?_, fun e he => ?_, ?_⟩
          · rw [← e1]; simp [slotDict]
          · rw [← e2]; simp [slotDict]
          · obtain ⟨h1, y, hy, h2⟩ := e3 e he
            exact ⟨h1, y, List.mem_cons_of_mem _ hy, h2⟩
          · rw [e4]; simp
        | some p =>
          refine ⟨((.str name, name), p) :: es, ?_, ?_, fun e he => ?_, ?_⟩
          · show _ = (Val.str name, p.1) :: es.map _
            rw [← e1]; simp [slotDict]
          · show _ = (Val.str name, p.2) :: es.map _
            rw [← e2]; simp [slotDict]
          · rcases List.mem_cons.1 he with rfl | he
            · exact ⟨rfl, _, List.mem_cons_self, rfl⟩
            · obtain ⟨h1, y, hy, h2⟩ := e3 e he
              exact ⟨h1, y, List.mem_cons_of_mem _ hy, h2⟩
          · rw [List.map_cons, e4]; simp
    obtain ⟨es, e1, e2, e3, e4⟩ := key ys
    rw [e1, e2]
    refine hC.dict ?_ (fun e he => (e3 e he).1 ▸ hC.str _) fun e he => ?_
    · rw [e4]
      have : (ys.filterMap fun y => y.2.map fun _ => y.1).Sublist (ys.map (·.1)) := by
        clear e4 e3 e2 e1 n1 n2 back hnd' hnames hall hlen
        induction ys with
        | nil => exact .slnil
        | cons y r ih =>
          cases hy : y.2 with
          | none => simp only [List.filterMap_cons, hy, Option.map_none, List.map_cons]; exact .cons _ ih
          | some p => simp only [List.filterMap_cons, hy, Option.map_some, List.map_cons]; exact .cons₂ _ ih
      exact this.nodup hnd'
    · obtain ⟨_, y, hy, h⟩ := e3 e he
      obtain ⟨_, _, _, hc, _⟩ := back y hy
      exact hc _ h
  · obtain ⟨y, hy, rfl⟩ := List.mem_map.1 hx
    obtain ⟨_, _, _, _, h⟩ := back y hy
    exact h a1
  · obtain ⟨i, hi⟩ := List.mem_iff_getElem?.1 hx
    obtain ⟨y, hy, e, _, _, h⟩ := hall i x hi
    refine h a2 _ ?_
    rw [← e]
    exact given_slotDict (n2 ▸ hnd') (List.mem_map.2 ⟨y, List.mem_of_getElem? hy, rfl⟩)
  · by_cases hm : name ∈ ys.map (·.1)
    · obtain ⟨y, hy, rfl⟩ := List.mem_map.1 hm
      have g1 := given_slotDict (n1 ▸ hnd') (List.mem_map.2 ⟨y, hy, rfl⟩)
      have g2 := given_slotDict (n2 ▸ hnd') (List.mem_map.2 ⟨y, hy, rfl⟩)
      simp only at g1 g2
      rw [g1] at hs
      obtain ⟨p, hp, rfl⟩ := Option.map_eq_some_iff.1 hs
      obtain ⟨_, _, _, hc, _⟩ := back y hy
      exact ⟨p.2, by rw [g2, hp]; rfl, hc _ hp⟩
    · exfalso
      unfold given at hs
      obtain ⟨e, he, _⟩ := Option.map_eq_some_iff.1 hs
      obtain ⟨x, hx, hxe⟩ := slotDict_keys (List.mem_of_find?_eq_some he)
      have hk := List.find?_some he
      rw [hxe] at hk
      simp at hk
      obtain ⟨y, hy, rfl⟩ := List.mem_map.1 hx
      exact hm (List.mem_map.2 ⟨y, hy, hk⟩)

/-- What was read of admissible data can be written, is carried, and what is carried is read as the same value. -/
theorem wire_by {C : Val → Val → Prop} {K : Val → Str → Prop} (hC : Carrier C K) {env : Env} {A : Val → Prop} {D P : Field → Val → Prop}
    (hL : CarriesLeaf env C P) (hK : CarriesKeys env K P) (hA : PartsAdmitted A D)
    (hz : ZoneLaw env) (n : Nat) (f : Field) (hs : Everywhere env (Settled env) f)
    (hn : Everywhere env (Sends env) f) (hw : Everywhere env (WiredBy env C A D P) f) (u v : Val) (a0 : List Str)
    (hu : A u ∨ D f u) (h : process env n f u .inbound true a0 = .ok v) :
    ∃ s s', (∀ a1, process env n f v .outbound true a1 = .ok s) ∧ C s s' ∧ ∀ a2, process env n f s' .inbound true a2 = .ok v := by
  induction n generalizing f u v a0 with
  | zero => cases h
  | succ n ih =>
    have down : ∀ g, Child env f g → ∀ u v a, A u ∨ D g u → process env n g u .inbound true a = .ok v →
        ∃ s s', (∀ a1, process env n g v .outbound true a1 = .ok s) ∧ C s s' ∧ ∀ a2, process env n g s' .inbound true a2 = .ok v :=
      fun g hg u v a hu h => ih g (fun x hx => hs x (.step hg hx)) (fun x hx => hn x (.step hg hx))
        (fun x hx => hw x (.step hg hx)) u v a hu h
    have hfix := C02_idempotent env hz (n + 1) f hs u v true a0 a0 h
    have fixes : ∀ g, Child env f g → ∀ u v a, process env n g u .inbound true a = .ok v → ∀ a', process env n g v .inbound false a' = .ok v :=
      fun g hg u v a h a' => C02_idempotent env hz n g (fun x hx => hs x (.step hg hx)) u v true a a' h
    have members : ∀ (defn : List (Str × Field)) (d : List (Val × Val)), A (.dict d) →
        (∀ name g c', Declares env defn name g c' → Child env f g) →
        ∀ name g c o u v a, Declares env defn name g c → (o = given d name) → memberInput c o .inbound false = some u →
        process env n g u .inbound true a = .ok v →
        ∃ s s', (∀ a1, process env n g v .outbound true a1 = .ok s) ∧ C s s' ∧ ∀ a2, process env n g s' .inbound true a2 = .ok v := by
      rintro defn d hd hch name g c o u v a hdec rfl hin hp
      refine down g (hch _ _ _ hdec) u v a ?_ hp
      cases hg : given d name with
      | none =>
        rw [hg, memberInput_absent] at hin
        simp only [Bool.false_eq_true, if_false, true_and] at hin
        split at hin
        · cases hin
          have hc : g.common? = some c := by obtain ⟨_, _, _, h⟩ := hdec; exact h
          exact (hw g (.step (hch _ _ _ hdec) .refl)).defaults c hc
        · cases hin
      | some x =>
        rw [hg, memberInput_given] at hin
        split at hin
        · cases hin
        · cases hin
          obtain ⟨e, he, rfl⟩ := given_occurs hg
          exact .inl (hA.value hd he)
    have plain : (∀ c k, f ≠ .leaf c k) → A u := by
      intro hne
      rcases hu with h | h
      · exact h
      · obtain ⟨c, k, h⟩ := hA.other h
        exact absurd h (hne c k)
    cases f with
    | undef s => cases h
    | leaf c k =>
      have hf := hw.here.leaves c k u v a0 rfl hu h
      obtain ⟨s, h1, h2⟩ := C72_read_back env hz (n + 1) (.leaf c k) hs u v true a0 [] [] h fun g w hi => by
        cases hi with
        | here => exact ⟨sends_sendable hz hn.here ⟨_, _, hfix⟩, hf⟩
        | call hc _ => cases hc
      obtain ⟨s', h3, h4⟩ := hL n c k v s [] hf (hw.here.ready _ _ _ _ hu h) h1
      exact ⟨s, s', fun a1 => (C71_accepts _ _ _ _ _ _ _ [] a1).1 h1, h3,
        fun a2 => (h4 _ _).1 ((C71_accepts _ _ _ _ _ _ _ [] a2).1 h2)⟩
    | union c fs =>
      have hua : A u := plain (fun _ _ h => nomatch h)
      rcases union_ok.1 h with ⟨rfl, rfl, hnn⟩ | ⟨hv, pre, g, hpick⟩
      · exact ⟨.none, .none, fun _ => union_ok.2 (.inl ⟨rfl, rfl, hnn⟩), hC.none, fun _ => union_ok.2 (.inl ⟨rfl, rfl, hnn⟩)⟩
      · obtain ⟨hnull, happ⟩ := hs.here.2 n pre g u true _ v hv hpick
        by_cases hvn : v = .none
        · subst hvn
          have hnn := (hnull rfl).1
          exact ⟨.none, .none, fun _ => union_ok.2 (.inl ⟨rfl, rfl, hnn⟩), hC.none, fun _ => union_ok.2 (.inl ⟨rfl, rfl, hnn⟩)⟩
        · have happ := happ hvn
          obtain ⟨⟨f, post, rfl, hg⟩, hrej, hp⟩ := hpick
          obtain ⟨s, s', h1, hc, h2⟩ := down g (.union (by simp) hg) u v _ (.inl hua) hp
          have hout : ∀ a, Picks env n (pre ++ f :: post) pre g v .outbound true a s := by
            intro a
            refine ⟨⟨f, post, rfl, hg⟩, fun x hx => ?_, h1 _⟩
            obtain ⟨y, hy, hry⟩ := happ a x hx
            exact ⟨y, hy, rejects_out hry⟩
          obtain ⟨hsn, hrej'⟩ := hw.here.unions c _ rfl v hvn _ _ _ _ _ _ (hout []) hc
          exact ⟨s, s', fun a1 => union_ok.2 (.inr ⟨hvn, pre, g, hout _⟩), hc,
            fun a2 => union_ok.2 (.inr ⟨hsn, pre, g, ⟨f, post, rfl, hg⟩, hrej' _, h2 _⟩)⟩
    | sequence c item mn mx u' =>
      have hua : A u := plain (fun _ _ h => nomatch h)
      obtain ⟨hpre, hsu⟩ := hn.here
      rcases (seq_ok hpre).1 h with ⟨rfl, rfl, hnn⟩ | ⟨l, rs, rfl, rfl, hlen, h1, h2, h3, h4⟩
      · exact ⟨.none, .none, fun _ => (seq_ok hpre).2 (.inl ⟨rfl, rfl, hnn⟩), hC.none, fun _ => (seq_ok hpre).2 (.inl ⟨rfl, rfl, hnn⟩)⟩
      · have one : ∀ (i : Nat) r, rs[i]? = some r → ∃ p : Val × Val, ∃ g, resolve env item = some g ∧
            (∀ a', process env n g r .inbound false a' = .ok r) ∧
            (∀ a1, process env n g r .outbound true a1 = .ok p.1) ∧ C p.1 p.2 ∧ ∀ a2, process env n g p.2 .inbound true a2 = .ok r := by
          intro i r hi
          have hil : i < l.length := by rw [← hlen]; exact (List.getElem?_eq_some_iff.1 hi).1
          obtain ⟨g, hg, hp⟩ := h3 i _ r (List.getElem?_eq_getElem hil) hi
          obtain ⟨s, s', e1, e2, e3⟩ := down g (.item hg) _ r _ (.inl (hA.list hua (List.getElem_mem hil))) hp
          exact ⟨(s, s'), g, hg, fixes g (.item hg) _ _ _ hp, e1, e2, e3⟩
        obtain ⟨ps, hps, hall⟩ := list_choice one
        have fwd : ∀ (i : Nat) r p, rs[i]? = some r → ps[i]? = some p → ∃ g, resolve env item = some g ∧
            (∀ a', process env n g r .inbound false a' = .ok r) ∧
            (∀ a1, process env n g r .outbound true a1 = .ok p.1) ∧ C p.1 p.2 ∧ ∀ a2, process env n g p.2 .inbound true a2 = .ok r := by
          intro i r p hr' hs'
          obtain ⟨s', e, h⟩ := hall i r hr'
          rw [hs'] at e; cases e
          exact h
        refine ⟨.list (ps.map (·.1)), .list (ps.map (·.2)), fun a1 => (seq_ok hpre).2 (.inr ⟨rs, _, rfl, rfl, by simpa using hps,
          by rwa [hlen], by rwa [hlen], fun i x r hx hy => ?_, fun hut => ?_⟩), hC.list fun p hp => ?_,
          fun a2 => (seq_ok hpre).2 (.inr ⟨_, rs, rfl, rfl, by simpa using hps.symm,
          by rwa [List.length_map, hps, hlen], by rwa [List.length_map, hps, hlen], fun i x r hx hy => ?_, h4⟩)⟩
        · rw [List.getElem?_map] at hy
          obtain ⟨p, hp, rfl⟩ := Option.map_eq_some_iff.1 hy
          obtain ⟨g, hg, _, e, _⟩ := fwd i x p hx hp
          exact ⟨g, hg, e _⟩
        · have : ps.map (·.1) = rs := by
            apply List.ext_getElem (by simpa using hps)
            intro i hi hi'
            have hip : i < ps.length := by omega
            obtain ⟨c', k, hg', hk⟩ := hsu hut
            obtain ⟨g, hg, e0, e, _⟩ := fwd i _ _ (List.getElem?_eq_getElem hi') (List.getElem?_eq_getElem hip)
            rw [hg] at hg'; cases hg'
            rw [List.getElem_map]
            exact carried_out hk (e0 []) (e [])
          rw [this]
          exact h4 hut
        · obtain ⟨i, hi⟩ := List.mem_iff_getElem?.1 hp
          have hir : i < rs.length := by rw [← hps]; exact (List.getElem?_eq_some_iff.1 hi).1
          obtain ⟨_, _, _, _, e, _⟩ := fwd i _ p (List.getElem?_eq_getElem hir) hi
          exact e
        · rw [List.getElem?_map] at hx
          obtain ⟨p, hp, rfl⟩ := Option.map_eq_some_iff.1 hx
          obtain ⟨g, hg, _, _, _, e⟩ := fwd i r p hy hp
          exact ⟨g, hg, e _⟩
    | tuple c fs =>
      have hua : A u := plain (fun _ _ h => nomatch h)
      have hpre : c.pre = none := hn.here
      rcases (tup_ok hpre).1 h with ⟨rfl, rfl, hnn⟩ | ⟨l, rs, hl, rfl, h1, h2, h3⟩
      · exact ⟨.none, .none, fun _ => (tup_ok hpre).2 (.inl ⟨rfl, rfl, hnn⟩), hC.none, fun _ => (tup_ok hpre).2 (.inl ⟨rfl, rfl, hnn⟩)⟩
      · have hocc : ∀ x ∈ l, A x := by
          intro x hx
          rcases hl with rfl | rfl
          · exact hA.list hua hx
          · exact hA.tuple hua hx
        have one : ∀ (i : Nat) r, rs[i]? = some r → ∃ p : Val × Val, C p.1 p.2 ∧ ∀ f, fs[i]? = some f → ∃ g, resolve env f = some g ∧
            (∀ a1, process env n g r .outbound true a1 = .ok p.1) ∧ ∀ a2, process env n g p.2 .inbound true a2 = .ok r := by
          intro i r hi
          have hil : i < l.length := by rw [← h2]; exact (List.getElem?_eq_some_iff.1 hi).1
          have hif : i < fs.length := by rw [← h1]; exact hil
          obtain ⟨g, r', hg, hr', hp⟩ := h3 i _ _ (List.getElem?_eq_getElem hif) (List.getElem?_eq_getElem hil)
          rw [hi] at hr'; cases hr'
          obtain ⟨s, s', e1, e2, e3⟩ := down g (.tuple (List.getElem_mem hif) hg) _ r _ (.inl (hocc _ (List.getElem_mem hil))) hp
          refine ⟨(s, s'), e2, fun f hf => ?_⟩
          rw [List.getElem?_eq_getElem hif] at hf; cases hf
          exact ⟨g, hg, e1, e3⟩
        obtain ⟨ps, hps, hall⟩ := list_choice one
        refine ⟨.tuple (ps.map (·.1)), .list (ps.map (·.2)),
          fun a1 => (tup_ok hpre).2 (.inr ⟨rs, _, .inr rfl, rfl, h2.trans h1, by simpa using hps, fun i f x hf hx => ?_⟩),
          hC.tuple fun p hp => ?_,
          fun a2 => (tup_ok hpre).2 (.inr ⟨_, rs, .inl rfl, rfl, by rw [List.length_map]; exact (hps.trans h2).trans h1,
            by simpa using hps.symm, fun i f x hf hx => ?_⟩)⟩
        · obtain ⟨p, hp, _, e⟩ := hall i x hx
          obtain ⟨g, hg, e1, _⟩ := e f hf
          exact ⟨g, p.1, hg, by rw [List.getElem?_map, hp]; rfl, e1 _⟩
        · obtain ⟨i, hi⟩ := List.mem_iff_getElem?.1 hp
          have hir : i < rs.length := by rw [← hps]; exact (List.getElem?_eq_some_iff.1 hi).1
          obtain ⟨p', hp', e, _⟩ := hall i _ (List.getElem?_eq_getElem hir)
          rw [hi] at hp'; cases hp'
          exact e
        · rw [List.getElem?_map] at hx
          obtain ⟨p, hp, rfl⟩ := Option.map_eq_some_iff.1 hx
          have hil : i < rs.length := by rw [← hps]; exact (List.getElem?_eq_some_iff.1 hp).1
          obtain ⟨p', hp', _, e⟩ := hall i _ (List.getElem?_eq_getElem hil)
          rw [hp] at hp'; cases hp'
          obtain ⟨g, hg, _, e2⟩ := e f hf
          exact ⟨g, _, hg, List.getElem?_eq_getElem hil, e2 _⟩
    | map c key value req =>
      have hua : A u := plain (fun _ _ h => nomatch h)
      have hready := hw.here.ready _ _ _ _ hu h
      obtain ⟨hpre, hk⟩ := hn.here
      rcases (map_ok hpre).1 h with ⟨rfl, rfl, hnn⟩ | ⟨d, es, rfl, hlen, hes, out, rfl, hout, hreq⟩
      · exact ⟨.none, .none, fun _ => (map_ok hpre).2 (.inl ⟨rfl, rfl, hnn⟩), hC.none, fun _ => (map_ok hpre).2 (.inl ⟨rfl, rfl, hnn⟩)⟩
      · rcases (map_ok hpre).1 hfix with ⟨h, _⟩ | ⟨d', es', hd', hlen', hes', out', hw', hout', -⟩
        · cases h
        cases hd'; cases hw'
        have hed : es' = out := foldl_dictSet_full hout'.symm hlen'
        subst hed
        have hdist : DistinctKeys es' := by rw [hout]; exact foldl_dictSet_apart _ _ .nil
        have hvals : ∀ e ∈ es', ∃ p : Val × Val, ∃ g, resolve env value = some g ∧
            (∀ a1, process env n g e.2 .outbound true a1 = .ok p.1) ∧ C p.1 p.2 ∧ ∀ a2, process env n g p.2 .inbound true a2 = .ok e.2 := by
          rw [hout]
          refine foldl_dictSet_values (P := fun r => ∃ p : Val × Val, ∃ g, resolve env value = some g ∧
            (∀ a1, process env n g r .outbound true a1 = .ok p.1) ∧ C p.1 p.2 ∧
            ∀ a2, process env n g p.2 .inbound true a2 = .ok r) es [] (by simp) ?_
          intro e he
          obtain ⟨i, hi⟩ := List.mem_iff_getElem?.1 he
          have hil : i < d.length := by rw [← hlen]; exact (List.getElem?_eq_some_iff.1 hi).1
          obtain ⟨k', r, e1, _, _, g, st, hg, _, hp⟩ := hes i d[i].1 d[i].2 (List.getElem?_eq_getElem hil)
          rw [hi] at e1; cases e1
          obtain ⟨s, s', e1, e2, e3⟩ := down g (.value hg) _ r _ (.inl (hA.value hua (List.getElem_mem hil))) hp
          exact ⟨(s, s'), g, hg, e1, e2, e3⟩
        have hkeys : ∀ e ∈ es', hashable e.1 = true ∧ (∃ st, keyStep env e.1 = .ok st) ∧
            ∀ a, KeyOk env n .outbound true a key e.1 e.1 ∧ KeyOk env n .inbound true a key e.1 e.1 := by
          rintro ⟨k, x⟩ he
          obtain ⟨i, hi⟩ := List.mem_iff_getElem?.1 he
          obtain ⟨k', r, e1, hk', hh, g, st, hg, hst, hp⟩ := hes' i k x hi
          rw [hi] at e1; cases e1
          refine ⟨hh, ⟨st, hst⟩, fun a => ?_⟩
          cases hk' with
          | text t => exact ⟨.text t, .text t⟩
          | field e1 e2 =>
            obtain ⟨c', k', rfl, hka⟩ := hk _ rfl
            obtain ⟨o1, o2⟩ := carried_both hz hka (hs _ (.step .key .refl)) e2
            exact ⟨.field e1 (o1 _), .field e1 (o2 _)⟩
        obtain ⟨t, ht⟩ := hK n c key value req es' es' hready
          (fun kf hkf e he => by
            obtain ⟨c', k', rfl, hka⟩ := hk kf hkf
            subst hkf
            exact ⟨hs _ (.step .key .refl), by cases k' <;> trivial⟩)
          fun e he => ⟨e.1, ⟨e.2, he⟩, [], ((hkeys e he).2.2 []).1⟩
        obtain ⟨qs, hq, hqs⟩ := list_choice_pairs (l := es') (P := fun (e : Val × Val) (q : Val × Val × Val) => q.1 = e.1 ∧ ∃ g, resolve env value = some g ∧
            (∀ a1, process env n g e.2 .outbound true a1 = .ok q.2.1) ∧ C q.2.1 q.2.2 ∧
            ∀ a2, process env n g q.2.2 .inbound true a2 = .ok e.2)
          fun e he => by
            obtain ⟨p, g, hg, e1, e2, e3⟩ := hvals e he
            exact ⟨(e.1, p), rfl, g, hg, e1, e2, e3⟩
        have hqd : qs.Pairwise fun a b => pyEq b.1 a.1 = false := by
          unfold DistinctKeys at hdist
          rw [List.pairwise_iff_getElem] at hdist ⊢
          intro i j hi hj hij
          obtain ⟨q, e1, e2, _⟩ := hqs i _ (List.getElem?_eq_getElem (by omega))
          obtain ⟨q', e1', e2', _⟩ := hqs j _ (List.getElem?_eq_getElem (by omega))
          rw [List.getElem?_eq_getElem hi] at e1; cases e1
          rw [List.getElem?_eq_getElem hj] at e1'; cases e1'
          rw [e2, e2']
          exact hdist i j (by omega) (by omega) hij
        have hmem : ∀ q ∈ qs, (∃ e ∈ es', q.1 = e.1) ∧ C q.2.1 q.2.2 := by
          intro q hqm
          obtain ⟨i, hi⟩ := List.mem_iff_getElem?.1 hqm
          have hie : i < es'.length := by rw [← hq]; exact (List.getElem?_eq_some_iff.1 hi).1
          obtain ⟨q', hq', e, _, _, _, hc, _⟩ := hqs i _ (List.getElem?_eq_getElem hie)
          rw [hi] at hq'; cases hq'
          exact ⟨⟨_, List.getElem_mem hie, e⟩, hc⟩
        have hcar := hC.dict (es := qs.map fun q => ((q.1, t q.1), q.2)) (by
            rw [List.map_map]
            refine List.pairwise_map.2 (hqd.imp_of_mem fun {a b} ha hb hab => ?_)
            obtain ⟨⟨e, he, hae⟩, _⟩ := hmem a ha
            obtain ⟨⟨e', he', hbe⟩, _⟩ := hmem b hb
            have hab' : pyEq e'.1 e.1 = false := by rw [← hae, ← hbe]; exact hab
            simp only [Function.comp_apply]
            rw [hae, hbe]
            exact (ht e he).2.2 e' he' hab')
          (by
            intro e he
            obtain ⟨q, hq', rfl⟩ := List.mem_map.1 he
            obtain ⟨⟨e, he, hae⟩, _⟩ := hmem q hq'
            simp only
            rw [hae]
            exact (ht e he).1)
          (by
            intro e he
            obtain ⟨q, hq', rfl⟩ := List.mem_map.1 he
            exact (hmem q hq').2)
        rw [List.map_map, List.map_map] at hcar
        refine ⟨.dict (qs.map fun q => (q.1, q.2.1)), .dict (qs.map fun q => (.str (t q.1), q.2.2)),
          fun a1 => (map_ok hpre).2 (.inr ⟨es', qs.map fun q => (q.1, q.2.1), rfl, by simpa using hq,
            fun i k x hi => ?_, _, rfl, ?_, fun r hrq => ?_⟩), hcar,
          fun a2 => (map_ok hpre).2 (.inr ⟨_, es', rfl, by simpa using hq.symm, fun i k x hi => ?_, es', rfl, ?_, hreq⟩)⟩
        · obtain ⟨⟨k', s, s'⟩, e1, e0, g, hg, e2, _⟩ := hqs i _ hi
          simp only at e0 e2
          subst e0
          obtain ⟨hh, ⟨st, hst⟩, hk1⟩ := hkeys _ (List.mem_of_getElem? hi)
          exact ⟨_, s, by rw [List.getElem?_map, e1]; rfl, (hk1 _).1, hh, g, st, hg, hst, e2 _⟩
        · rw [foldl_dictSet_new _ [] (List.pairwise_map.2 hqd) (by simp)]; rfl
        · obtain ⟨hh, e, he, hpe⟩ := hreq r hrq
          obtain ⟨i, hi⟩ := List.mem_iff_getElem?.1 he
          obtain ⟨q, e1, e2, _⟩ := hqs i _ hi
          exact ⟨hh, (q.1, q.2.1), List.mem_map.2 ⟨q, List.mem_of_getElem? e1, rfl⟩, by rw [e2]; exact hpe⟩
        · rw [List.getElem?_map] at hi
          obtain ⟨q, hqi, e⟩ := Option.map_eq_some_iff.1 hi
          have hil : i < es'.length := by rw [← hq]; exact (List.getElem?_eq_some_iff.1 hqi).1
          obtain ⟨⟨k', s, s'⟩, e1, e0, g, hg, _, _, e2⟩ := hqs i _ (List.getElem?_eq_getElem hil)
          rw [hqi] at e1; cases e1
          cases e
          obtain ⟨hh, ⟨st, hst⟩, hk1⟩ := hkeys _ (List.getElem_mem hil)
          refine ⟨es'[i].1, es'[i].2, List.getElem?_eq_getElem hil, ?_, hh, g, st, hg, hst, e2 _⟩
          simp only [Function.comp_apply] at e0 ⊢
          rw [e0]
          exact ((ht _ (List.getElem_mem hil)).2.1 _ _).1 (hk1 _).2
        · rw [foldl_dictSet_new es' [] hdist (by simp)]; rfl
    | «structure» c defn strict ko =>
      have hua : A u := plain (fun _ _ h => nomatch h)
      obtain ⟨hpre, hnd⟩ := hn.here
      rcases (struct_ok hpre hnd).1 h with ⟨rfl, rfl, hnn⟩ | ⟨d, rfl, hst, slots, h1, h2, rfl⟩
      · exact ⟨.none, .none, fun _ => (struct_ok hpre hnd).2 (.inl ⟨rfl, rfl, hnn⟩), hC.none, fun _ => (struct_ok hpre hnd).2 (.inl ⟨rfl, rfl, hnn⟩)⟩
      · have hch : ∀ name g c', Declares env defn name g c' → Child env (.structure c defn strict ko) g := by
          rintro name g c' ⟨f, hl, hg, _⟩
          exact .member (lookup_mem hl) hg
        have hag := slots_again (anc' := []) hz (h1 ▸ hnd) (fun name g c' hd => (hs.child (hch _ _ _ hd)).here)
          (fun name g c' v w a hd hp => fixes g (hch _ _ _ hd) v w a hp) h2
        obtain ⟨slots', slots'', e1, e1', hc, e2, e3, _⟩ := wire_slots_by hC hnd h1 h2 hag (members defn d hua hch)
        refine ⟨.dict (slotDict slots'), .dict (slotDict slots''),
          fun a1 => (struct_ok hpre hnd).2 (.inr ⟨_, rfl, fun _ e he => ?_, slots', e1, e2 _, rfl⟩), hc,
          fun a2 => (struct_ok hpre hnd).2 (.inr ⟨_, rfl, fun _ e he => ?_, slots, h1, e3 _, rfl⟩)⟩
        · obtain ⟨x, hx, he⟩ := slotDict_keys he
          exact ⟨x.1, h1 ▸ List.mem_map.2 ⟨x, hx, rfl⟩, he⟩
        · obtain ⟨x, hx, he⟩ := slotDict_keys he
          exact ⟨x.1, (e1' ▸ List.mem_map.2 ⟨x, hx, rfl⟩ : x.1 ∈ visited defn ko), he⟩
    | poly c disc vs strict ko =>
      have hua : A u := plain (fun _ _ h => nomatch h)
      obtain ⟨hpre, -⟩ := hs.here.1 c rfl
      obtain ⟨rfl, hdisc, hvs⟩ := hs.here.2
      obtain ⟨-, -, ⟨dc, dk, rfl, hdk⟩, -⟩ := hn.here
      have hnds : ∀ e ∈ vs, (e.2.map (·.1)).Nodup := fun e he => (hvs e.1 e.2 he).2.1
      rcases (poly_ok hpre hnds).1 h with ⟨rfl, rfl, hnn⟩ | ⟨d, raw, id, defn, rfl, hraw, hnn, hid, hh, hv, hne, hst, slots, h1, h2, rfl⟩
      · exact ⟨.none, .none, fun _ => (poly_ok hpre hnds).2 (.inl ⟨rfl, rfl, hnn⟩), hC.none, fun _ => (poly_ok hpre hnds).2 (.inl ⟨rfl, rfl, hnn⟩)⟩
      · obtain ⟨e, he, hde⟩ : ∃ e, vs.find? (fun e => pyEq id e.1) = some e ∧ e.2 = defn := by
          have hv' := hv
          unfold variantFor at hv'
          rwa [Option.map_eq_some_iff] at hv'
        obtain ⟨i, defn'⟩ := e
        simp only at hde
        subst hde
        have hmem : (i, defn') ∈ vs := List.mem_of_find?_eq_some he
        obtain ⟨hi, hnd, m, hlk, htag⟩ := hvs i defn' hmem
        have hidne : id ≠ .none := by
          rintro rfl
          have := List.find?_some he
          simp only at this
          cases i <;> simp [pyEq, numOf] at this hi
        have hch : ∀ name g c', Declares env defn' name g c' → Child env (.poly c (.leaf dc dk) vs strict []) g := by
          rintro name g c' ⟨f, hl, hg, _⟩
          exact .variant hmem (lookup_mem hl) hg
        have hag := slots_again (anc' := []) hz (h1 ▸ hnd) (fun name g c' hd => (hs.child (hch _ _ _ hd)).here)
          (fun name g c' v w a hd hp => fixes g (hch _ _ _ hd) v w a hp) h2
        obtain ⟨slots', slots'', e1, e1', hc, e2, e3, e4⟩ := wire_slots_by hC hnd h1 h2 hag (members defn' d hua hch)
        have hidfix := fixes _ .disc _ _ _ hid
        obtain ⟨o1, o2⟩ := carried_both hz hdk (hs _ (.step .disc .refl)) (hidfix [])
        have hdm : (Field.leaf dc dk).name.getD [] ∈ defn'.map (·.1) := List.mem_map.2 ⟨_, lookup_mem hlk, rfl⟩
        obtain ⟨x0, hx0, hxn0⟩ := List.mem_map.1 (h1 ▸ hdm)
        have hslot : given (slotDict slots) ((Field.leaf dc dk).name.getD []) = some id := by
          have hg := given_slotDict (h1 ▸ hnd) hx0
          rw [hxn0] at hg
          rw [hg]
          obtain ⟨g, c', ⟨f, hl, hres, hc'⟩, _, hcase⟩ := h2 x0 hx0
          rw [hxn0, hlk] at hl
          cases hl
          rw [tag_resolve htag hdisc] at hres
          cases hres
          rw [hxn0, hraw, memberInput_given] at hcase
          have : raw.isNone = false := by
            cases hr : raw.isNone
            · rfl
            · exact absurd ((isNone_iff _).1 hr) hnn
          rw [this] at hcase
          simp only [Bool.and_false, Bool.false_eq_true, if_false, reduceCtorEq, false_and, false_or, Option.some.injEq] at hcase
          obtain ⟨v, w, rfl, hw, hp⟩ := hcase
          rw [← tag_same htag hid hp]
          exact hw
        have hslot' : given (slotDict slots') ((Field.leaf dc dk).name.getD []) = some id := by
          have hdm' := hdm
          rw [← e1] at hdm'
          obtain ⟨x, hx, hxn⟩ := List.mem_map.1 hdm'
          have hg := given_slotDict (e1 ▸ hnd) hx
          rw [hxn] at hg
          rw [hg]
          obtain ⟨g, c', ⟨f, hl, hres, hc'⟩, _, hcase⟩ := e2 [] x hx
          rw [hxn, hlk] at hl
          cases hl
          rw [tag_resolve htag hdisc] at hres
          cases hres
          rw [hxn, hslot, memberInput_given] at hcase
          have : id.isNone = false := by
            cases hr : id.isNone
            · rfl
            · exact absurd ((isNone_iff _).1 hr) hidne
          rw [this] at hcase
          simp only [Bool.and_false, Bool.false_eq_true, if_false, reduceCtorEq, false_and, false_or, Option.some.injEq] at hcase
          obtain ⟨v, w, rfl, hw, hp⟩ := hcase
          rw [hw, tag_same htag (o1 _) hp]
        obtain ⟨id', hslot'', hcid⟩ := e4 _ _ hslot'
        have hid'ne : id' ≠ .none := fun h => hidne ((hC.none_iff hcid).2 h)
        -- the discriminator reads what came back for its member
        have hread : ∀ a, process env n (.leaf dc dk) id' .inbound true a = .ok id := by
          intro a
          obtain ⟨g, c', ⟨f, hl, hres, hc'⟩, _, hcase⟩ := e3 [] x0 hx0
          rw [hxn0, hlk] at hl
          cases hl
          rw [tag_resolve htag hdisc] at hres
          cases hres
          have hg := given_slotDict (h1 ▸ hnd) hx0
          rw [hxn0, hslot] at hg
          rw [hxn0, hslot'', memberInput_given] at hcase
          have : id'.isNone = false := by
            cases hr : id'.isNone
            · rfl
            · exact absurd ((isNone_iff _).1 hr) hid'ne
          rw [this] at hcase
          simp only [Bool.and_false, Bool.false_eq_true, if_false, reduceCtorEq, false_and, false_or, Option.some.injEq] at hcase
          obtain ⟨v, w, rfl, hw, hp⟩ := hcase
          rw [← hg] at hw
          cases hw
          exact (C71_accepts _ _ _ _ _ _ _ _ a).1 (tag_up htag hp)
        refine ⟨.dict (slotDict slots'), .dict (slotDict slots''),
          fun a1 => (poly_ok hpre hnds).2 (.inr ⟨_, id, id, defn', rfl, hslot, hidne, o1 _, hh, hv, hne,
            fun _ e he => ?_, slots', e1, e2 _, rfl⟩), hc,
          fun a2 => (poly_ok hpre hnds).2 (.inr ⟨_, id', id, defn', rfl, hslot'', hid'ne, hread _, hh, hv, hne,
            fun _ e he => ?_, slots, h1, e3 _, rfl⟩)⟩
        · obtain ⟨x, hx, he⟩ := slotDict_keys he
          exact ⟨x.1, h1 ▸ List.mem_map.2 ⟨x, hx, rfl⟩, he⟩
        · obtain ⟨x, hx, he⟩ := slotDict_keys he
          exact ⟨x.1, e1' ▸ List.mem_map.2 ⟨x, hx, rfl⟩, he⟩

end Scheme
