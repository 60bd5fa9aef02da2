import Verif.Lemmas.Rejects
import Verif.Spec.Sendable
import Verif.Props.RoundTrip
import Verif.Props.Locality

/-! What is read can be written. -/

namespace Scheme

theorem leaf_sent {env : Env} {c : Common} {k : Leaf} {v : Val} {anc : List Str} (hs : Sendable env (.leaf c k) v)
    (h : processLeaf env c k v .inbound false anc = .ok v) : ∃ s, processLeaf env c k v .outbound true anc = .ok s := by
  rcases processLeaf_ok.1 h with ⟨h1, _⟩ | ⟨h1, v1, v2, v3, hd, hp, hc, hv, he⟩
  · exact ⟨.none, processLeaf_ok.2 (.inl ⟨h1, rfl⟩)⟩
  · simp only [decodeStep, encodeStep, Bool.false_eq_true, false_and, if_false, Except.ok.injEq] at hd he
    subst hd he
    have key : ∃ s, serializeLeaf env (.leaf c k) k v3 = .ok s := by
      cases k with
      | any | boolean | email | enumeration | float | integer | text | token | uuid => exact ⟨_, rfl⟩
      | decimal => cases v3 <;> exact ⟨_, rfl⟩
      | binary =>
        cases v2 <;> simp only [validateLeaf] at hv
        all_goals repeat' split at hv
        all_goals first | (cases hv; done) | (cases hv; exact ⟨_, rfl⟩)
      | date =>
        cases v2 <;> simp only [validateLeaf] at hv
        all_goals repeat' split at hv
        all_goals first | (cases hv; done) | (cases hv; exact ⟨_, rfl⟩)
      | time =>
        cases v2 <;> simp only [validateLeaf] at hv
        all_goals repeat' split at hv
        all_goals first | (cases hv; done) | (cases hv; exact ⟨_, rfl⟩)
      | error =>
        cases v2 <;> simp only [validateLeaf] at hv
        all_goals first | (cases hv; done) | (cases hv; exact ⟨_, rfl⟩)
      | datetime =>
        have : ∃ d, v3 = .datetime d := by
          cases v2 <;> simp only [validateLeaf] at hv
          all_goals repeat' split at hv
          all_goals first | (cases hv; done) | (cases hv; exact ⟨_, rfl⟩)
        obtain ⟨d, rfl⟩ := this
        simp only [serializeLeaf]
        by_cases hu : d.tz = some .utc
        · rw [if_pos hu]; exact ⟨_, rfl⟩
        · rw [if_neg hu]
          rcases hs d rfl with h | ⟨x, h⟩
          · exact absurd h hu
          · rw [h]; exact ⟨_, rfl⟩
      | definition =>
        have : ∃ d, v3 = .field d := by
          cases v2 <;> simp only [validateLeaf] at hv
          all_goals repeat' split at hv
          all_goals first | (cases hv; done) | (cases hv; exact ⟨_, rfl⟩)
        obtain ⟨d, rfl⟩ := this
        exact hs d rfl
      | surrogate =>
        have : ∃ d, v3 = .surr d := by
          cases v2 <;> simp only [validateLeaf] at hv
          all_goals repeat' split at hv
          all_goals first | (cases hv; done) | (cases hv; exact ⟨_, rfl⟩)
        obtain ⟨d, rfl⟩ := this
        exact hs d rfl
      | object =>
        rcases hs with rfl | ⟨s, rfl⟩ | ⟨s, hs⟩
        · simp [isNull, Field.common?, nullView, Val.isNone] at h1
          split at h1 <;> cases h1
        · exact ⟨_, rfl⟩
        · simp only [serializeLeaf]
          split
          · exact ⟨_, rfl⟩
          · rw [hs]; exact ⟨_, rfl⟩
    obtain ⟨s, hser⟩ := key
    refine ⟨s, processLeaf_ok.2 (.inr ⟨h1, v3, v2, v3, ?_, hp, hc, hv, ?_⟩)⟩
    · simp [decodeStep]
    · simp [encodeStep, serOut, hser]

theorem list_choice {α β : Type} {l : List α} {P : Nat → α → β → Prop}
    (h : ∀ (i : Nat) x, l[i]? = some x → ∃ y, P i x y) :
    ∃ rs : List β, rs.length = l.length ∧ ∀ (i : Nat) x, l[i]? = some x → ∃ y, rs[i]? = some y ∧ P i x y := by
  induction l generalizing P with
  | nil => exact ⟨[], rfl, fun i x h => (by simp at h)⟩
  | cons a r ih =>
    obtain ⟨y, hy⟩ := h 0 a rfl
    obtain ⟨rs, h1, h2⟩ := ih (P := fun i => P (i + 1)) fun i x hx => h (i + 1) x (by simpa using hx)
    refine ⟨y :: rs, by simp [h1], fun i x hx => ?_⟩
    cases i with
    | zero =>
      simp only [List.getElem?_cons_zero, Option.some.injEq] at hx
      subst hx
      exact ⟨y, rfl, hy⟩
    | succ i => exact h2 i x (by simpa using hx)

theorem foldl_dictSet_length (es acc : List (Val × Val)) :
    (es.foldl (fun a e => dictSet a e.1 e.2) acc).length ≤ acc.length + es.length := by
  induction es generalizing acc with
  | nil => simp
  | cons e r ih =>
    refine (ih _).trans ?_
    have : (dictSet acc e.1 e.2).length ≤ acc.length + 1 := by
      rcases dictSet_keys acc e.1 e.2 with ⟨_, h⟩ | ⟨_, h⟩
      · have := congrArg List.length h
        simp only [List.length_map] at this
        omega
      · rw [h]; simp
    simp only [List.length_cons]
    omega

/-- If no entry was lost, the entries are the dict. -/
theorem foldl_dictSet_full {es d : List (Val × Val)} (h : es.foldl (fun a e => dictSet a e.1 e.2) [] = d)
    (hl : es.length = d.length) : es = d := by
  have gen : ∀ (es acc : List (Val × Val)),
      (es.foldl (fun a e => dictSet a e.1 e.2) acc).length = acc.length + es.length →
      es.foldl (fun a e => dictSet a e.1 e.2) acc = acc ++ es := by
    intro es
    induction es with
    | nil => intro acc _; simp
    | cons e r ih =>
      intro acc hlen
      simp only [List.foldl_cons, List.length_cons] at hlen ⊢
      have hle := foldl_dictSet_length r (dictSet acc e.1 e.2)
      have hset : dictSet acc e.1 e.2 = acc ++ [(e.1, e.2)] := by
        rcases dictSet_keys acc e.1 e.2 with ⟨_, h⟩ | ⟨_, h⟩
        · have := congrArg List.length h
          simp only [List.length_map] at this
          omega
        · exact h
      rw [hset] at hlen ⊢
      rw [ih _ (by rw [hlen]; simp; omega)]
      simp
  have := gen es [] (by rw [h, hl]; simp)
  rw [h] at this
  simpa using this.symm

/-- Every key that was set is there, as itself or as an equal one. -/
theorem foldl_dictSet_has {es : List (Val × Val)} {e : Val × Val} (he : e ∈ es) (acc : List (Val × Val)) :
    ∃ x ∈ es.foldl (fun a e => dictSet a e.1 e.2) acc, x.1 = e.1 ∨ pyEq e.1 x.1 = true := by
  have keep : ∀ (es acc : List (Val × Val)), ∀ x ∈ acc, ∃ y ∈ es.foldl (fun a e => dictSet a e.1 e.2) acc, y.1 = x.1 := by
    intro es
    induction es with
    | nil => intro acc x hx; exact ⟨x, hx, rfl⟩
    | cons e r ih =>
      intro acc x hx
      obtain ⟨y, hy, h⟩ := dictSet_keeps (k := e.1) (v := e.2) hx
      obtain ⟨z, hz, h'⟩ := ih _ y hy
      exact ⟨z, hz, h'.trans h⟩
  induction es generalizing acc with
  | nil => exact absurd he List.not_mem_nil
  | cons a r ih =>
    rcases List.mem_cons.1 he with rfl | he
    · obtain ⟨x, hx, _, h⟩ := dictSet_has (d := acc) (k := e.1) (v := e.2)
      obtain ⟨y, hy, h'⟩ := keep r _ x hx
      refine ⟨y, hy, ?_⟩
      rw [h']
      exact h
    · exact ih he _

theorem union_sent {env : Env} {n : Nat} {v : Val} {anc : List Str} {fs : List Field}
    (ih : ∀ f ∈ fs, ∀ g, resolve env f = some g → process env n g v .inbound false anc = .ok v →
      ∃ s, process env n g v .outbound true anc = .ok s)
    (h : unionLoop env (process env n) v .inbound false anc fs = some (.ok v)) :
    ∃ s, unionLoop env (process env n) v .outbound true anc fs = some (.ok s) := by
  induction fs with
  | nil => cases h
  | cons f r ihr =>
    have ihr := ihr (fun f hf => ih f (List.mem_cons_of_mem _ hf))
    unfold unionLoop at h ⊢
    cases hg : resolve env f with
    | none => simp [callChild, hg] at h
    | some g =>
      simp only [callChild, hg] at h ⊢
      cases hp : process env n g v .inbound false anc with
      | ok w =>
        rw [hp] at h
        simp only [Option.some.injEq, Except.ok.injEq] at h
        subst h
        obtain ⟨s, hs⟩ := ih f List.mem_cons_self _ hg hp
        rw [hs]
        exact ⟨s, rfl⟩
      | error e =>
        rw [hp] at h
        cases e <;> simp only [Option.some.injEq, reduceCtorEq] at h
        rename_i e
        by_cases hc : e.cls = .invalidType
        · rw [if_pos hc] at h
          obtain ⟨e', h1, h2⟩ := rejects_out ⟨e, hc, hp⟩
          rw [h2]
          simp only [h1, if_true]
          exact ihr h
        · rw [if_neg hc] at h
          cases h

/-- The slots of a fixed point of inbound processing can be filled outbound. -/
theorem slots_sent {env : Env} {n : Nat} {defn : List (Str × Field)} {anc anc' : List Str} {order : List Str}
    {slots : List (Str × Option Val)} (hnd : order.Nodup) (h1 : slots.map (·.1) = order)
    (h2 : ∀ x ∈ slots, SlotOk env n defn (slotDict slots) .inbound false false anc x.1 x.2)
    (ih : ∀ name g c x, Declares env defn name g c → memberInput c (given (slotDict slots) name) .outbound false = some x →
      process env n g x .inbound false [] = .ok x → ∃ s, process env n g x .outbound true [] = .ok s) :
    ∃ slots' : List (Str × Option Val), slots'.map (·.1) = order ∧
      ∀ x ∈ slots', SlotOk env n defn (slotDict slots) .outbound true false anc' x.1 x.2 := by
  have one : ∀ x ∈ slots, ∃ r, SlotOk env n defn (slotDict slots) .outbound true false anc' x.1 r := by
    intro x hx
    have hg := given_slotDict (h1 ▸ hnd) hx
    obtain ⟨g, c, hd, hm, h⟩ := h2 x hx
    rw [hg] at hm h
    cases hx2 : x.2 with
    | none =>
      rw [hx2] at hm h
      refine ⟨none, g, c, hd, ?_, .inl ⟨?_, rfl⟩⟩
      · rw [hg, hx2]
        rintro ⟨_, _, hr, _⟩
        rcases h with ⟨h, _⟩ | ⟨v, w, _, h, _⟩
        · exact hm ⟨rfl, rfl, hr, h⟩
        · cases h
      · rw [hg, hx2]; rfl
    | some w =>
      rw [hx2] at hm h
      rcases h with ⟨_, h⟩ | ⟨v, w', hi, h, hp⟩
      · cases h
      · cases h
        have hw : v = w := by
          rw [memberInput_given] at hi
          split at hi
          · cases hi
          · exact (Option.some.inj hi).symm
        subst hw
        have ho : memberInput c (given (slotDict slots) x.1) .outbound false = some v := by
          rw [hg, hx2, memberInput_given]
          rw [memberInput_given] at hi
          exact hi
        obtain ⟨s, hs⟩ := ih x.1 g c v hd ho ((C71_accepts ..).1 hp)
        refine ⟨some s, g, c, hd, ?_, .inr ⟨v, s, ho, rfl, (C71_accepts ..).1 hs⟩⟩
        rw [hg, hx2]
        rintro ⟨h, _⟩
        cases h
  clear h2 ih hnd
  have gen : ∀ (l : List (Str × Option Val)), (∀ x ∈ l, x ∈ slots) → ∃ slots' : List (Str × Option Val),
      slots'.map (·.1) = l.map (·.1) ∧
      ∀ x ∈ slots', SlotOk env n defn (slotDict slots) .outbound true false anc' x.1 x.2 := by
    intro l
    induction l with
    | nil => intro _; exact ⟨[], rfl, fun x hx => absurd hx List.not_mem_nil⟩
    | cons a r ih =>
      intro hl
      obtain ⟨t, ht, hok⟩ := ih fun x hx => hl x (List.mem_cons_of_mem _ hx)
      obtain ⟨o, ho⟩ := one a (hl a List.mem_cons_self)
      refine ⟨(a.1, o) :: t, by simp [ht], fun x hx => ?_⟩
      rcases List.mem_cons.1 hx with rfl | hx
      · exact ho
      · exact hok x hx
  obtain ⟨t, ht, hok⟩ := gen slots fun _ h => h
  exact ⟨t, ht.trans h1, hok⟩

/-- In a fixed point the discriminator is a fixed point of its field. -/
theorem disc_fixed {env : Env} {n : Nat} {disc : Field} {defn : List (Str × Field)} {slots : List (Str × Option Val)}
    {raw id : Val} {anc : List Str} (hdisc : resolve env disc = some disc) (hnd : (defn.map (·.1)).Nodup)
    (hlk : Tagged disc defn) (h1 : slots.map (·.1) = defn.map (·.1))
    (h2 : ∀ x ∈ slots, SlotOk env n defn (slotDict slots) .inbound false false anc x.1 x.2)
    (hraw : given (slotDict slots) (disc.name.getD []) = some raw)
    (hid : process env n disc raw .inbound false (anc ++ ['.' :: disc.name.getD []]) = .ok id) : raw = id := by
  obtain ⟨m, hlk, htag⟩ := hlk
  have hdm : disc.name.getD [] ∈ slots.map (·.1) := by rw [h1]; exact List.mem_map.2 ⟨_, lookup_mem hlk, rfl⟩
  obtain ⟨x, hx, hxn⟩ := List.mem_map.1 hdm
  have hg := given_slotDict (h1 ▸ hnd) hx
  rw [hxn, hraw] at hg
  obtain ⟨g, c', ⟨f, hl, hres, hc'⟩, _, hcase⟩ := h2 x hx
  rw [hxn, hlk] at hl
  cases hl
  rw [tag_resolve htag hdisc] at hres
  cases hres
  rw [← hg, hxn, hraw] at hcase
  rcases hcase with ⟨_, h⟩ | ⟨v, w, hi, hw, hp⟩
  · cases h
  · cases hw
    rw [memberInput_given] at hi
    split at hi
    · cases hi
    · cases hi
      exact tag_same htag hid hp

/-- C72. A native value that inbound processing leaves as it is can be serialized.  (The restrictions need only hold
of the values at hand that are themselves left as they are.) -/
theorem C72_fixed (env : Env) (n : Nat) (f : Field) (v : Val) (anc anc' : List Str)
    (hf : ∀ g w, Involves env .outbound f v g w → (∃ m a, process env m g w .inbound false a = .ok w) → Sendable env g w)
    (h : process env n f v .inbound false anc = .ok v) : ∃ s, process env n f v .outbound true anc' = .ok s := by
  induction n generalizing f v anc anc' with
  | zero => cases h
  | succ n ih =>
    have hfv := hf f v .here ⟨n + 1, anc, h⟩
    have ih' : ∀ g x, Calls env .outbound false f v g x → ∀ anc, process env n g x .inbound false anc = .ok x →
        ∀ anc', ∃ s, process env n g x .outbound true anc' = .ok s :=
      fun g x hc anc h anc' => ih g x anc anc' (fun g' w' hi => hf g' w' (.call hc hi)) h
    cases f with
    | undef s => cases h
    | leaf c k => exact leaf_sent hfv ((C71_accepts env (n + 1) (.leaf c k) v v .inbound false anc anc').1 h)
    | union c fs =>
      rw [C71_accepts _ _ _ _ _ _ _ _ anc'] at h
      replace h : processUnion env (process env n) c fs v .inbound false anc' = .ok v := h
      show ∃ s, processUnion env (process env n) c fs v .outbound true anc' = .ok s
      unfold processUnion at h ⊢
      dsimp only at h ⊢
      obtain ⟨b, hb, h⟩ := except_bind_eq_ok.1 h
      rw [hb]
      simp only [except_bind_ok]
      cases b with
      | true => exact ⟨_, rfl⟩
      | false =>
        simp only [Bool.false_eq_true, if_false] at h ⊢
        have hloop : unionLoop env (process env n) v .inbound false (ancOr (.union c fs) anc') fs = some (.ok v) := by
          revert h
          cases unionLoop env (process env n) v .inbound false (ancOr (.union c fs) anc') fs with
          | none => intro h; cases h
          | some r => intro h; exact congrArg some h
        obtain ⟨s, hs⟩ := union_sent (fun f hf g hg hp => ih' g v (.union hf hg) _ hp _) hloop
        rw [hs]
        exact ⟨s, rfl⟩
    | sequence c item mn mx u =>
      obtain ⟨hpre, hu⟩ := hfv
      have hci : containerInput env c v = some v := by unfold containerInput; rw [hpre]
      rw [seq_ok hpre] at h
      simp only [seq_ok hpre]
      rcases h with ⟨rfl, _, hn⟩ | ⟨l, rs, rfl, hrs, _, h1, h2, h3, h4⟩
      · exact ⟨.none, .inl ⟨rfl, rfl, hn⟩⟩
      · cases hrs
        have one : ∀ (i : Nat) x, l[i]? = some x → ∃ s g, resolve env item = some g ∧
            process env n g x .outbound true (ancOr (.sequence c item mn mx u) anc' ++ [idxStep i]) = .ok s := by
          intro i x hx
          obtain ⟨g, hg, hp⟩ := h3 i x x hx hx
          obtain ⟨s, hs⟩ := ih' g x (.item hci (List.mem_of_getElem? hx) hg) _ hp
            (ancOr (.sequence c item mn mx u) anc' ++ [idxStep i])
          exact ⟨s, g, hg, hs⟩
        obtain ⟨rs, hlen, hrs⟩ := list_choice one
        have hrs' : ∀ (i : Nat) x r, l[i]? = some x → rs[i]? = some r → ∃ g, resolve env item = some g ∧
            process env n g x .outbound true (ancOr (.sequence c item mn mx u) anc' ++ [idxStep i]) = .ok r := by
          intro i x r hx hr
          obtain ⟨s, hs, h⟩ := hrs i x hx
          rw [hr] at hs; cases hs
          exact h
        refine ⟨_, .inr ⟨l, rs, rfl, rfl, hlen, h1, h2, hrs', fun hut => ⟨fun r hr => ?_, ?_⟩⟩⟩
        · obtain ⟨i, hi⟩ := List.mem_iff_getElem?.1 hr
          have hil : i < l.length := by rw [← hlen]; exact (List.getElem?_eq_some_iff.1 hi).1
          obtain ⟨g, hg, hp⟩ := hrs' i _ r (List.getElem?_eq_getElem hil) hi
          exact (hu hut l g rfl hg).1 _ (List.getElem_mem hil) _ _ _ hp
        · rw [List.pairwise_iff_getElem]
          intro i j hi hj hij
          obtain ⟨g, hg, hp⟩ := hrs' i _ _ (List.getElem?_eq_getElem (by omega)) (List.getElem?_eq_getElem hi)
          obtain ⟨g', hg', hp'⟩ := hrs' j _ _ (List.getElem?_eq_getElem (by omega)) (List.getElem?_eq_getElem hj)
          rw [hg] at hg'; cases hg'
          exact List.pairwise_iff_getElem.1 (hu hut l g rfl hg).2 i j (by omega) (by omega) hij _ _ _ _ _ hp hp'
    | tuple c fs =>
      have hpre : c.pre = none := hfv
      have hci : containerInput env c v = some v := by unfold containerInput; rw [hpre]
      rw [tup_ok hpre] at h
      simp only [tup_ok hpre]
      rcases h with ⟨rfl, _, hn⟩ | ⟨l, rs, hl, hrs, h1, h2, h3⟩
      · exact ⟨.none, .inl ⟨rfl, rfl, hn⟩⟩
      · subst hrs
        have : l = rs := by rcases hl with e | e <;> cases e; rfl
        subst this
        have one : ∀ (i : Nat) x, l[i]? = some x → ∃ s, ∀ f, fs[i]? = some f → ∃ g, resolve env f = some g ∧
            process env n g x .outbound true (ancOr (.tuple c fs) anc' ++ [idxStep i]) = .ok s := by
          intro i x hx
          have hil : i < fs.length := by rw [← h1]; exact (List.getElem?_eq_some_iff.1 hx).1
          obtain ⟨g, r, hg, hr, hp⟩ := h3 i _ x (List.getElem?_eq_getElem hil) hx
          rw [hx] at hr; cases hr
          have hz : (fs[i], x) ∈ fs.zip l := by
            refine List.mem_of_getElem? (i := i) ?_
            rw [List.getElem?_zip_eq_some]
            exact ⟨List.getElem?_eq_getElem hil, hx⟩
          obtain ⟨s, hs⟩ := ih' g x (.tuple hci hl hz hg) _ hp (ancOr (.tuple c fs) anc' ++ [idxStep i])
          refine ⟨s, fun f hfi => ?_⟩
          rw [List.getElem?_eq_getElem hil] at hfi; cases hfi
          exact ⟨g, hg, hs⟩
        obtain ⟨rs, hlen, hrs⟩ := list_choice one
        refine ⟨_, .inr ⟨l, rs, hl, rfl, h1, hlen, fun i f x hfi hx => ?_⟩⟩
        obtain ⟨s, hs, h⟩ := hrs i x hx
        obtain ⟨g, hg, hp⟩ := h f hfi
        exact ⟨g, s, hg, hs, hp⟩
    | map c key value req =>
      obtain ⟨hpre, hkeys⟩ := hfv
      have hci : containerInput env c v = some v := by unfold containerInput; rw [hpre]
      rw [map_ok hpre] at h
      simp only [map_ok hpre]
      rcases h with ⟨rfl, _, hn⟩ | ⟨d, es, rfl, hlen, hes, out, hw, hout, hreq⟩
      · exact ⟨.none, .inl ⟨rfl, rfl, hn⟩⟩
      · cases hw
        obtain ⟨hk1, hk2⟩ := hkeys d rfl
        have hed : es = d := foldl_dictSet_full hout.symm hlen
        subst hed
        have one : ∀ (i : Nat) e, es[i]? = some e → ∃ s : Val × Val,
            KeyOk env n .outbound true (ancOr (.map c key value req) anc') key e.1 s.1 ∧ hashable s.1 = true ∧
            EntryOk env n .outbound true (ancOr (.map c key value req) anc') value s.1 e.2 s.2 := by
          rintro i ⟨k, x⟩ hi
          obtain ⟨k', r, he, hk, hh, g, st, hg, hst, hp⟩ := hes i k x hi
          rw [hi] at he; cases he
          have hm := List.mem_of_getElem? hi
          obtain ⟨s, hs⟩ : ∃ s, KeyOk env n .outbound true (ancOr (.map c key value req) anc') key k s := by
            cases hk with
            | text t => exact ⟨_, .text t⟩
            | field h1 h2 =>
              obtain ⟨s, hs⟩ := ih' _ k (.key hci hm) _ h2 _
              exact ⟨s, .field h1 hs⟩
          obtain ⟨hh', st', hst'⟩ := hk1 _ hm _ _ _ hs
          obtain ⟨y, hy⟩ := ih' g x (.value hci hm hg) _ hp (ancOr (.map c key value req) anc' ++ [st'])
          exact ⟨(s, y), hs, hh', g, st', hg, hst', hy⟩
        obtain ⟨qs, hq, hqs⟩ := list_choice one
        refine ⟨_, .inr ⟨es, qs, rfl, hq, fun i k x hi => ?_, _, rfl, rfl, fun k hk => ⟨(hreq k hk).1, ?_⟩⟩⟩
        · obtain ⟨⟨s, y⟩, hs, h⟩ := hqs i (k, x) hi
          exact ⟨s, y, hs, h⟩
        · obtain ⟨e, he, hs⟩ := hk2 k hk
          obtain ⟨i, hi⟩ := List.mem_iff_getElem?.1 he
          obtain ⟨s, hs', h, _⟩ := hqs i e hi
          obtain ⟨x, hx, hxs⟩ := foldl_dictSet_has (List.mem_of_getElem? hs') []
          refine ⟨x, hx, ?_⟩
          rcases hxs with h' | h'
          · rw [h']; exact hs _ _ _ h
          · exact pyEq_trans (hs _ _ _ h) h'
    | «structure» c defn strict ko =>
      obtain ⟨hpre, hnd⟩ := hfv
      have hci : containerInput env c v = some v := by unfold containerInput; rw [hpre]
      rw [struct_ok hpre hnd] at h
      simp only [struct_ok hpre hnd]
      rcases h with ⟨rfl, _, hn⟩ | ⟨d, rfl, hst, slots, h1, h2, hw⟩
      · exact ⟨.none, .inl ⟨rfl, rfl, hn⟩⟩
      · cases hw
        obtain ⟨slots', h3, h4⟩ := slots_sent (anc' := ancOr (.structure c defn strict ko) anc') hnd h1 h2
          (fun name g c' x hd hin hp => by
            obtain ⟨f, hl, hg, hc'⟩ := hd
            exact ih' g x (.member hci (lookup_mem hl) hg hc' (.inl rfl) hin) [] hp [])
        exact ⟨_, .inr ⟨_, rfl, hst, slots', h3, h4, rfl⟩⟩
    | poly c disc vs strict ko =>
      obtain ⟨hpre, rfl, hdisc, hvs, hdis⟩ := hfv
      have hci : containerInput env c v = some v := by unfold containerInput; rw [hpre]
      have hnds : ∀ e ∈ vs, (e.2.map (·.1)).Nodup := fun e he => (hvs e.1 e.2 he).1
      rw [poly_ok hpre hnds] at h
      simp only [poly_ok hpre hnds]
      rcases h with ⟨rfl, _, hn⟩ | ⟨d, raw, id, defn, rfl, hraw, hnn, hid, hh, hv, hne, hst, slots, h1, h2, hw⟩
      · exact ⟨.none, .inl ⟨rfl, rfl, hn⟩⟩
      · cases hw
        obtain ⟨e, he, hde⟩ : ∃ e, vs.find? (fun e => pyEq id e.1) = some e ∧ e.2 = defn := by
          have hv' := hv
          unfold variantFor at hv'
          rwa [Option.map_eq_some_iff] at hv'
        obtain ⟨i, defn'⟩ := e
        simp only at hde
        subst hde
        have hmem : (i, defn') ∈ vs := List.mem_of_find?_eq_some he
        obtain ⟨hnd, hlk⟩ := hvs i defn' hmem
        have hslot : raw = id := disc_fixed hdisc hnd hlk h1 h2 hraw hid
        subst hslot
        obtain ⟨x, hx⟩ := ih' disc raw (.disc hci hraw) _ hid
          (ancOr (.poly c disc vs strict []) anc' ++ ['.' :: disc.name.getD []])
        obtain ⟨hh', hv'⟩ := hdis _ raw _ _ x rfl hraw hx
        obtain ⟨slots', h3, h4⟩ := slots_sent (anc' := ancOr (.poly c disc vs strict []) anc') hnd h1 h2
          (fun name g c' x hd hin hp => by
            obtain ⟨f, hl, hg, hc'⟩ := hd
            exact ih' g x (.variant hci hmem (lookup_mem hl) hg hc' (.inl rfl) hin) [] hp [])
        exact ⟨_, .inr ⟨_, raw, x, defn', rfl, hraw, hnn, hx, hh', hv'.trans hv, hne, hst, slots', h3, h4, rfl⟩⟩

/-- C72. What inbound processing accepted, of native or serialized data, can be serialized. -/
theorem C72_written (env : Env) (hz : ZoneLaw env) (n : Nat) (f : Field) (hs : Everywhere env (Settled env) f)
    (u v : Val) (ser : Bool) (a0 a1 : List Str) (hv : process env n f u .inbound ser a0 = .ok v)
    (hf : ∀ g w, Involves env .outbound f v g w → (∃ m a, process env m g w .inbound false a = .ok w) → Sendable env g w) :
    ∃ s, process env n f v .outbound true a1 = .ok s :=
  C72_fixed env n f v a0 a1 hf (C02_idempotent env hz n f hs u v ser a0 a0 hv)

/-- C72. What was read can be written, and is read back as the same value. -/
theorem C72_read_back (env : Env) (hz : ZoneLaw env) (n : Nat) (f : Field) (hs : Everywhere env (Settled env) f)
    (u v : Val) (ser : Bool) (a0 a1 a2 : List Str) (hv : process env n f u .inbound ser a0 = .ok v)
    (hf : ∀ g w, Involves env .outbound f v g w → Sendable env g w ∧ Faithful env g w) :
    ∃ s, process env n f v .outbound true a1 = .ok s ∧ process env n f s .inbound true a2 = .ok v := by
  obtain ⟨s, h⟩ := C72_written env hz n f hs u v ser a0 a1 hv fun g w hi _ => (hf g w hi).1
  exact ⟨s, h, C03_round_trip env hz n f hs u v s ser a0 a1 a2 hv (fun g w hi => (hf g w hi).2) h⟩

/-- Leaves that serialize a value as itself. -/
theorem carried_out {env : Env} {n m : Nat} {c : Common} {k : Leaf} {x s : Val} {a b : List Str} (hk : CarriedAsIs k)
    (h : process env m (.leaf c k) x .inbound false a = .ok x) (h' : process env n (.leaf c k) x .outbound true b = .ok s) :
    s = x := by
  cases m with
  | zero => cases h
  | succ m =>
    cases n with
    | zero => cases h'
    | succ n =>
      rw [C71_accepts _ _ _ _ _ _ _ a b] at h
      replace h : processLeaf env c k x .inbound false b = .ok x := h
      replace h' : processLeaf env c k x .outbound true b = .ok s := h'
      rcases processLeaf_ok.1 h with ⟨h1, h2⟩ | ⟨h1, v1, v2, v3, hd, hp, hc, hv, he⟩
      · rcases processLeaf_ok.1 h' with ⟨_, h3⟩ | ⟨h3, _⟩
        · rw [h2, h3]
        · rw [h1] at h3; cases h3
      · rcases processLeaf_ok.1 h' with ⟨h3, _⟩ | ⟨_, w1, w2, w3, hd', hp', hc', hv', he'⟩
        · rw [h1] at h3; cases h3
        · simp only [decodeStep, encodeStep, Bool.false_eq_true, false_and, if_false, Except.ok.injEq, reduceCtorEq,
            and_false, and_self, if_true] at hd he hd' he'
          subst hd hd' he
          rw [hp] at hp'; cases hp'
          rw [hv] at hv'; cases hv'
          have : serOut env (.leaf c k) k v3 (ancOr (.leaf c k) b) = .ok v3 := by
            cases k <;> first | exact hk.elim | rfl
          rw [this] at he'
          exact (Except.ok.inj he').symm

theorem normalized_zone {env : Env} (hz : ZoneLaw env) {d d' : PDateTime} (h : Normalized env true d d') :
    d'.tz = some .utc := by
  rcases h with ⟨_, rfl⟩ | ⟨h, rfl⟩ | ⟨_, _, _, h⟩
  · rfl
  · exact h
  · exact hz _ _ _ h

theorem calls_child {env : Env} {ph : Phase} {part : Bool} {f g : Field} {v w : Val} (h : Calls env ph part f v g w) :
    Child env f g := by
  cases h with
  | item _ _ h => exact .item h
  | key => exact .key
  | value _ _ h => exact .value h
  | tuple _ _ h1 h2 => exact .tuple (List.of_mem_zip h1).1 h2
  | union h1 h2 => exact .union h1 h2
  | member _ h1 h2 => exact .member h1 h2
  | disc => exact .disc
  | variant _ h1 h2 h3 => exact .variant h1 h2 h3

theorem involves_reach {env : Env} {ph : Phase} {f g : Field} {v w : Val} (h : Involves env ph f v g w) :
    Reach env f g := by
  induction h with
  | here => exact .refl
  | call h _ ih => exact .step (calls_child h) ih

theorem sends_sendable {env : Env} (hz : ZoneLaw env) {g : Field} {w : Val} (hs : Sends env g)
    (h : ∃ m a, process env m g w .inbound false a = .ok w) : Sendable env g w := by
  obtain ⟨m, a, h⟩ := h
  cases m with
  | zero => cases h
  | succ m =>
    cases g with
    | undef => trivial
    | union c fs => trivial
    | tuple c fs => exact hs
    | «structure» c defn strict ko => exact hs
    | leaf c k =>
      cases k <;> first | exact hs.elim | trivial | skip
      rename_i mn mx utc
      have hs : utc = true := hs
      subst hs
      rintro d rfl
      left
      rcases processLeaf_ok.1 (show processLeaf env c _ _ .inbound false a = _ from h) with ⟨_, h⟩ | ⟨_, v1, v2, v3, _, _, _, hv, he⟩
      · cases h
      · simp only [encodeStep, Bool.false_eq_true, false_and, if_false, Except.ok.injEq] at he
        subst he
        obtain ⟨d1, d2, _, hn, h2, _⟩ := validate_datetime.1 hv
        cases h2
        exact normalized_zone hz hn
    | sequence c item mn mx u =>
      obtain ⟨hpre, hs⟩ := hs
      refine ⟨hpre, ?_⟩
      rintro hu l g rfl hg
      obtain ⟨c', k, hg', hk⟩ := hs hu
      rw [hg] at hg'; cases hg'
      rw [seq_ok hpre] at h
      rcases h with ⟨h, _⟩ | ⟨l', rs, h, h', _, _, _, h3, h4⟩
      · cases h
      · cases h; cases h'
        obtain ⟨h5, h6⟩ := h4 hu
        have one : ∀ x ∈ l, ∃ m a, process env m (.leaf c' k) x .inbound false a = .ok x := by
          intro x hx
          obtain ⟨i, hi⟩ := List.mem_iff_getElem?.1 hx
          obtain ⟨g, hg', hp⟩ := h3 i x x hi hi
          rw [hg] at hg'; cases hg'
          exact ⟨_, _, hp⟩
        refine ⟨fun x hx m a s hs => ?_, ?_⟩
        · obtain ⟨m', a', hp⟩ := one x hx
          rw [carried_out hk hp hs]
          exact h5 x hx
        · refine h6.imp_of_mem fun {x y} hx hy hxy m a b s t hs ht => ?_
          obtain ⟨m', a', hp⟩ := one x hx
          obtain ⟨m'', a'', hp'⟩ := one y hy
          rw [carried_out hk hp hs, carried_out hk hp' ht]
          exact hxy
    | map c key value req =>
      obtain ⟨hpre, hs⟩ := hs
      refine ⟨hpre, ?_⟩
      rintro d rfl
      rw [map_ok hpre] at h
      rcases h with ⟨h, _⟩ | ⟨d', es, h, hlen, hes, out, hw, hout, hreq⟩
      · cases h
      · cases h; cases hw
        have hed : es = d := foldl_dictSet_full hout.symm hlen
        subst hed
        have same : ∀ e ∈ es, ∀ m a s, KeyOk env m .outbound true a key e.1 s →
            s = e.1 ∧ hashable e.1 = true ∧ ∃ st, keyStep env e.1 = .ok st := by
          rintro ⟨k, x⟩ he m a s hk
          obtain ⟨i, hi⟩ := List.mem_iff_getElem?.1 he
          obtain ⟨k', r, he', hk', hh, g, st, hg, hst, hp⟩ := hes i k x hi
          rw [hi] at he'; cases he'
          refine ⟨?_, hh, st, hst⟩
          cases hk' with
          | text t => cases hk; rfl
          | field h1 h2 =>
            cases hk with
            | field h3 h4 =>
              obtain ⟨c', k', hkf, hka⟩ := hs _ rfl
              subst hkf
              exact carried_out hka h2 h4
        refine ⟨fun e he m a s hk => ?_, fun r hr => ?_⟩
        · obtain ⟨rfl, h⟩ := same e he m a s hk
          exact h
        · obtain ⟨e, he, h⟩ := (hreq r hr).2
          refine ⟨e, he, fun m a s hk => ?_⟩
          rw [(same e he m a s hk).1]
          exact h
    | poly c disc vs strict ko =>
      obtain ⟨hpre, rfl, ⟨c', k, rfl, hk⟩, hvs⟩ := hs
      refine ⟨hpre, rfl, rfl, hvs, ?_⟩
      rintro d raw n a' x rfl hraw hx
      have hnds : ∀ e ∈ vs, (e.2.map (·.1)).Nodup := fun e he => (hvs e.1 e.2 he).1
      rw [poly_ok hpre hnds] at h
      rcases h with ⟨h, _⟩ | ⟨d', raw', id, defn, h, hraw', hnn, hid, hh, hv, hne, hst, slots, h1, h2, hw⟩
      · cases h
      · cases h
        cases hw
        rw [hraw] at hraw'; cases hraw'
        obtain ⟨e, he, hde⟩ : ∃ e, vs.find? (fun e => pyEq id e.1) = some e ∧ e.2 = defn := by
          have hv' := hv
          unfold variantFor at hv'
          rwa [Option.map_eq_some_iff] at hv'
        obtain ⟨i, defn'⟩ := e
        simp only at hde
        subst hde
        obtain ⟨hnd, hlk⟩ := hvs i defn' (List.mem_of_find?_eq_some he)
        have hslot : raw = id := disc_fixed rfl hnd hlk h1 h2 hraw hid
        subst hslot
        rw [carried_out hk hid hx]
        exact ⟨hh, rfl⟩

/-- C72. In these schemas everything that is accepted can be serialized. -/
theorem C72_schema (env : Env) (hz : ZoneLaw env) (n : Nat) (f : Field) (hs : Everywhere env (Settled env) f)
    (hn : Everywhere env (Sends env) f) (u v : Val) (ser : Bool) (a0 a1 : List Str)
    (hv : process env n f u .inbound ser a0 = .ok v) : ∃ s, process env n f v .outbound true a1 = .ok s :=
  C72_written env hz n f hs u v ser a0 a1 hv fun g _ hi h => sends_sendable hz (hn g (involves_reach hi)) h

/-! ### A case -/

/-- Something with a unique list of numbers and a map from numbers to times. -/
def Ex.plan : Field := .structure {} [
  (c!"ids", .sequence { required := true } (.leaf {} (.integer none none)) none (some 3) true),
  (c!"at", .map {} (some (.leaf {} (.integer none none))) (.leaf {} (.time none none)) [.int 1])] true []

theorem Ex.plan_reach {g : Field} (h : Reach Ex.env Ex.plan g) :
    g = Ex.plan ∨ g = .sequence { required := true } (.leaf {} (.integer none none)) none (some 3) true ∨
    g = .map {} (some (.leaf {} (.integer none none))) (.leaf {} (.time none none)) [.int 1] ∨
    g = .leaf {} (.integer none none) ∨ g = .leaf {} (.time none none) := by
  have key : ∀ f, (f = Ex.plan ∨ f = .sequence { required := true } (.leaf {} (.integer none none)) none (some 3) true ∨
    f = .map {} (some (.leaf {} (.integer none none))) (.leaf {} (.time none none)) [.int 1] ∨
    f = .leaf {} (.integer none none) ∨ f = .leaf {} (.time none none)) → ∀ g, Reach Ex.env f g →
    (g = Ex.plan ∨ g = .sequence { required := true } (.leaf {} (.integer none none)) none (some 3) true ∨
    g = .map {} (some (.leaf {} (.integer none none))) (.leaf {} (.time none none)) [.int 1] ∨
    g = .leaf {} (.integer none none) ∨ g = .leaf {} (.time none none)) := by
    intro f hf g hr
    induction hr with
    | refl => exact hf
    | step hc _ ih =>
      apply ih
      rcases hf with rfl | rfl | rfl | rfl | rfl
      · cases hc with
        | member hm hr =>
          simp only [List.mem_cons, Prod.mk.injEq, List.not_mem_nil, or_false] at hm
          rcases hm with ⟨_, rfl⟩ | ⟨_, rfl⟩ <;> cases hr <;> simp
      · cases hc with
        | item hr => cases hr; simp
      · cases hc with
        | key => simp
        | value hr => cases hr; simp
      · cases hc
      · cases hc
  exact key _ (.inl rfl) g h

theorem Ex.plan_settled : Everywhere Ex.env (Settled Ex.env) Ex.plan := by
  intro g hg
  rcases Ex.plan_reach hg with rfl | rfl | rfl | rfl | rfl
  all_goals refine ⟨fun c hc => ?_, ?_⟩
  all_goals first
    | (cases hc; exact ⟨rfl, fun h => (by cases h)⟩)
    | trivial
    | (show List.Nodup _; decide)

theorem Ex.plan_sends : Everywhere Ex.env (Sends Ex.env) Ex.plan := by
  intro g hg
  rcases Ex.plan_reach hg with rfl | rfl | rfl | rfl | rfl
  · exact ⟨rfl, by decide⟩
  · exact ⟨rfl, fun _ => ⟨_, _, rfl, trivial⟩⟩
  · exact ⟨rfl, fun kf h => by cases h; exact ⟨_, _, rfl, trivial⟩⟩
  · trivial
  · trivial

example (u v : Val) (n : Nat) (h : process Ex.env n Ex.plan u .inbound true [] = .ok v) :
    ∃ s, process Ex.env n Ex.plan v .outbound true [] = .ok s :=
  C72_schema Ex.env (fun d w d' h => by cases h; rfl) n Ex.plan Ex.plan_settled Ex.plan_sends u v true [] [] h

example : process Ex.env 3 Ex.plan (.dict [(.str c!"ids", .list [.int 3, .str c!"4"]),
      (.str c!"at", .dict [(.str c!"1", .str c!"01:02:03")])]) .inbound true [] =
    .ok (.dict [(.str c!"ids", .list [.int 3, .int 4]), (.str c!"at", .dict [(.int 1, .time ⟨1, 2, 3, 0⟩)])]) := rfl

/-! ### The restrictions are needed -/

/-- Two times that differ by microseconds are different, and serialized the same. -/
theorem C72_unique_fails :
    let f : Field := .sequence {} (.leaf {} (.time none none)) none none true
    let v : Val := .list [.time ⟨1, 2, 3, 0⟩, .time ⟨1, 2, 3, 4⟩]
    process Ex.env 2 f v .inbound false [] = .ok v ∧
    Raises (process Ex.env 2 f v .outbound true []) .validation [c!"(sequence)"] v c!"duplicate" :=
  ⟨rfl, _, _, rfl⟩

/-- Required keys are looked for among the serialized keys. -/
theorem C72_required_key_fails :
    let f : Field := .map {} (some (.leaf {} (.date none none))) (.leaf {} .any) [.date ⟨2020, 1, 1⟩]
    let v : Val := .dict [(.date ⟨2020, 1, 1⟩, .int 1)]
    process Ex.env 2 f v .inbound false [] = .ok v ∧
    ∃ e, process Ex.env 2 f v .outbound true [] = .error (.structural e) :=
  ⟨rfl, _, rfl⟩

/-- The variant is looked for by the serialized discriminator. -/
theorem C72_discriminator_fails :
    let d : Field := .leaf { name := some c!"on", required := true } (.date none none)
    let f : Field := .poly {} d [(.date ⟨2020, 1, 1⟩, [(c!"on", d)])] true []
    let v : Val := .dict [(.str c!"on", .date ⟨2020, 1, 1⟩)]
    process Ex.env 2 f v .inbound false [] = .ok v ∧
    Raises (process Ex.env 2 f v .outbound true []) .validation [c!"(structure)"] (.str c!"2020-01-01") c!"unrecognized" :=
  ⟨rfl, _, _, rfl⟩

/-- A member filled with its default when read has to be there when written: the value must come out of reading. -/
theorem C72_default_fails :
    let f : Field := .structure {} [(c!"a", .leaf { required := true, default := .int 1 } (.integer none none))] true []
    process Ex.env 2 f (.dict []) .inbound false [] = .ok (.dict [(.str c!"a", .int 1)]) ∧
    ∃ e, process Ex.env 2 f (.dict []) .outbound true [] = .error (.structural e) :=
  ⟨rfl, _, rfl⟩

end Scheme
