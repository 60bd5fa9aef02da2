import Verif.Lemmas.Members

namespace Scheme

theorem Declares.unique {env : Env} {defn : List (Str × Field)} {name : Str} {g g' : Field} {c c' : Common}
    (h : Declares env defn name g c) (h' : Declares env defn name g' c') : g = g' ∧ c = c' := by
  obtain ⟨f, a1, a2, a3⟩ := h
  obtain ⟨f', b1, b2, b3⟩ := h'
  rw [a1] at b1; cases b1; rw [a2] at b2; cases b2; rw [a3] at b3; cases b3
  exact ⟨rfl, rfl⟩

theorem Slot_exclusive {env : Env} {n : Nat} {defn : List (Str × Field)} {d : List (Val × Val)}
    {ph : Phase} {ser part : Bool} {anc : List Str} {name : Str} {r r' : Option Val}
    (h : SlotOk env n defn d ph ser part anc name r) (h' : SlotBad env n defn d ph ser part anc name r') :
    False := by
  obtain ⟨g, c, hd, hm, h⟩ := h
  obtain ⟨g', c', hd', h'⟩ := h'
  obtain ⟨rfl, rfl⟩ := hd.unique hd'
  rcases h' with ⟨h', _⟩ | ⟨v, e, hi, _, hp⟩
  · exact hm h'
  · rcases h with ⟨h, _⟩ | ⟨v', w, hi', _, hp'⟩
    · rw [h] at hi; simp at hi
    · rw [hi] at hi'; cases hi'; rw [hp] at hp'; cases hp'

theorem memberOut_ok_of_slotOk {env : Env} {n : Nat} {f : Field} {defn : List (Str × Field)}
    {d : List (Val × Val)} {ph : Phase} {ser part : Bool} {anc : List Str} {name : Str} {r : Option Val}
    (h : SlotOk env n defn d ph ser part anc name r) :
    memberOut env (process env n) f d defn ph ser part anc name = .ok (r, true) := by
  obtain ⟨g, c, hd, hm, h⟩ := h
  rcases h with ⟨hi, rfl⟩ | ⟨v, w, hi, rfl, hp⟩
  · exact memberOut_skip hd hi hm
  · rw [memberOut_input hd hi, hp]; rfl

theorem slotOk_of_memberOut {env : Env} {n : Nat} {f : Field} {defn : List (Str × Field)}
    {d : List (Val × Val)} {ph : Phase} {ser part : Bool} {anc : List Str} {name : Str} {r : Option Val}
    (hres : ∃ g c, Declares env defn name g c)
    (h : memberOut env (process env n) f d defn ph ser part anc name = .ok (r, true)) :
    SlotOk env n defn d ph ser part anc name r := by
  obtain ⟨g, c, hd⟩ := hres
  refine ⟨g, c, hd, ?_⟩
  by_cases hm : memberMissing c (given d name) ph part
  · rw [memberOut_missing hd hm] at h
    split at h <;> simp at h
  · refine ⟨hm, ?_⟩
    cases hi : memberInput c (given d name) ph part with
    | none =>
      rw [memberOut_skip hd hi hm] at h
      simp only [Except.ok.injEq, Prod.mk.injEq, and_true] at h
      exact .inl ⟨rfl, h.symm⟩
    | some v =>
      rw [memberOut_input hd hi, except_bind_eq_ok] at h
      obtain ⟨x, hx, h⟩ := h
      rw [collect_eq_ok] at hx
      obtain ⟨_, rfl⟩ := hx
      simp only [Except.ok.injEq, Prod.mk.injEq] at h
      rw [isOk_iff] at h
      exact .inr ⟨v, _, rfl, h.1.symm, h.2⟩

theorem memberOut_of_slotBad {env : Env} {n : Nat} {f : Field} {defn : List (Str × Field)}
    {d : List (Val × Val)} {ph : Phase} {ser part : Bool} {anc : List Str} {name : Str} {g : Field}
    {c : Common} (hf : (∃ c d s k, f = .structure c d s k) ∨ ∃ c d v s k, f = .poly c d v s k)
    (hp : plainErrors f) (hd : Declares env defn name g c)
    (h : memberMissing c (given d name) ph part ∨ ∃ v e, memberInput c (given d name) ph part = some v ∧
       process env n g v ph ser (anc ++ ['.' :: name]) = .error (.structural e)) :
    ∃ r, SlotBad env n defn d ph ser part anc name r ∧
      memberOut env (process env n) f d defn ph ser part anc name = .ok (r, false) := by
  rcases h with h | ⟨v, e, hi, h⟩
  · obtain ⟨t, m, hm⟩ := mkErr_struct_required f hf hp anc name
    refine ⟨_, ⟨g, c, hd, .inl ⟨h, t, m, rfl⟩⟩, ?_⟩
    rw [memberOut_missing hd h, hm]; rfl
  · exact ⟨_, ⟨g, c, hd, .inr ⟨v, e, hi, rfl, h⟩⟩, by rw [memberOut_input hd hi, h]; rfl⟩

theorem structBody_ok_iff (env : Env) (n : Nat) (f : Field) (strict : Bool) (order : List Str)
    (defn : List (Str × Field)) (d : List (Val × Val)) (ph : Phase) (ser part : Bool) (anc : List Str)
    (hnd : order.Nodup) (hdecl : ∀ name ∈ order, ∃ g c, Declares env defn name g c) (w : Val) :
    structBody env (process env n) f strict order defn d ph ser part anc = .ok w ↔
      (strict = true → ∀ e ∈ d, ∃ name ∈ order, e.1 = .str name) ∧
      ∃ slots : List (Str × Option Val), slots.map (·.1) = order ∧
        (∀ x ∈ slots, SlotOk env n defn d ph ser part anc x.1 x.2) ∧
        w = .dict (slotDict slots) := by
  rw [structBody_eq _ _ _ _ _ _ _ _ _ _ _ hnd, except_bind_eq_ok]
  constructor
  · rintro ⟨ms, hms, h⟩
    rw [except_bind_eq_ok] at h
    obtain ⟨st, hst, h⟩ := h
    cases hv : st.valid with
    | false => simp [hv] at h
    | true =>
      simp only [hv, if_true, Except.ok.injEq] at h
      have key : (strict = true → leftover order d = []) ∧
          st = ⟨leftover order d, (order.zip ms).filterMap (fun x => x.2.1.map fun v => (.str x.1, v)),
              ms.all (·.2)⟩ := by
        cases strict with
        | false => simp only [Bool.false_eq_true, if_false, Except.ok.injEq] at hst; exact ⟨by simp, hst.symm⟩
        | true =>
          simp only [if_true] at hst
          obtain ⟨h1, h2⟩ := structUnknown_valid _ _ _ _ _ _ hst hv
          exact ⟨fun _ => h1, h2⟩
      obtain ⟨hleft, rfl⟩ := key
      refine ⟨fun hs => leftover_nil.1 (hleft hs), order.zip (ms.map (·.1)), ?_, ?_, ?_⟩
      · have := seqAll_length hms; simp only [List.length_map] at this
        rw [List.map_fst_zip]; simp [this]
      · intro x hx
        obtain ⟨i, hi⟩ := List.getElem?_of_mem hx
        rw [List.getElem?_zip_eq_some, List.getElem?_map, Option.map_eq_some_iff] at hi
        obtain ⟨h1, m, h2, h3⟩ := hi
        rw [seqAll_eq_ok] at hms
        have := congrArg (fun t => t[i]?) hms
        simp only [List.getElem?_map, h1, h2, Option.map_some, Option.some.injEq] at this
        have hb : m.2 = true := List.all_eq_true.1 hv m (List.mem_of_getElem? h2)
        obtain ⟨m1, m2⟩ := m
        subst hb
        rw [← h3]
        exact slotOk_of_memberOut (hdecl _ (List.mem_of_getElem? h1)) this
      · rw [← h, slotDict, List.zip_map_right, List.filterMap_map]; rfl
  · rintro ⟨hs, slots, rfl, hslots, rfl⟩
    have hms : seqAll ((slots.map (·.1)).map (memberOut env (process env n) f d defn ph ser part anc)) =
        .ok (slots.map fun x => (x.2, true)) := by
      rw [seqAll_eq_ok, List.map_map, List.map_map]
      apply List.map_congr_left
      intro x hx
      exact memberOut_ok_of_slotOk (hslots x hx)
    refine ⟨_, hms, ?_⟩
    rw [except_bind_eq_ok]
    have hz : ((slots.map (·.1)).zip (slots.map fun x => (x.2, true))).filterMap
        (fun x => x.2.1.map fun v => (Val.str x.1, v)) = slotDict slots := by
      rw [List.zip_map', List.filterMap_map]; rfl
    have hall : ((slots.map fun x => ((x.2, true) : Option Val × Bool)).all (·.2)) = true := by simp
    rw [hz, hall]
    refine ⟨⟨leftover (slots.map (·.1)) d, slotDict slots, true⟩, ?_, by simp⟩
    cases strict with
    | false => simp
    | true => simp only [if_true]; rw [leftover_nil.2 (hs rfl)]; rfl

theorem structUnknown_report (env : Env) (f : Field)
    (hf : (∃ c d s k, f = .structure c d s k) ∨ ∃ c d v s k, f = .poly c d v s k)
    (hp : plainErrors f) (anc : List Str) (names : List Val) (st : SState)
    (h1 : ∀ e ∈ st.out, ∀ k ∈ names, pyEq k e.1 = false)
    (h2 : names.Pairwise fun a b => pyEq b a = false) :
    ∃ unk : List (Val × Val), unk.map (·.1) = names ∧
      (∀ e ∈ unk, ∃ t m, e.2 = .exc .validation anc [errItem c!"unknown" t m] .none .none) ∧
      structUnknown env f anc names st =
        .ok { st with out := st.out ++ unk, valid := st.valid && names.isEmpty } := by
  induction names generalizing st with
  | nil => exact ⟨[], rfl, by simp, by simp [structUnknown]⟩
  | cons k r ih =>
    rw [List.pairwise_cons] at h2
    obtain ⟨t, m, hm⟩ := mkErr_struct_unknown f hf hp anc (keyText env k)
    rw [structUnknown, hm]
    simp only
    rw [dictSet_new _ _ _ (fun e he => h1 e he k (List.mem_cons_self ..))]
    obtain ⟨unk, u1, u2, u3⟩ := ih { st with out := st.out ++ [(k, SErr.toVal ⟨.validation, anc, [errItem c!"unknown" t m], .none, .none⟩)], valid := false }
      (by
        intro e he x hx
        rcases List.mem_append.1 he with he | he
        · exact h1 e he x (List.mem_cons_of_mem _ hx)
        · rw [List.mem_singleton] at he; subst he; exact h2.1 x hx) h2.2
    refine ⟨(k, SErr.toVal ⟨.validation, anc, [errItem c!"unknown" t m], .none, .none⟩) :: unk, by simp [u1], ?_, ?_⟩
    · intro e he
      rcases List.mem_cons.1 he with rfl | he
      · exact ⟨t, m, rfl⟩
      · exact u2 e he
    · rw [u3]; simp

theorem pyEq_str_right {k : Val} {s : Str} : pyEq k (.str s) = true ↔ k = .str s := by
  cases k with
  | str t => simp [pyEq]
  | _ => simp [pyEq, numOf]

/-- The complete report of a failing structure. -/
theorem structBody_report (env : Env) (n : Nat) (f : Field)
    (hf : (∃ c d s k, f = .structure c d s k) ∨ ∃ c d v s k, f = .poly c d v s k) (hp : plainErrors f)
    (strict : Bool) (order : List Str)
    (defn : List (Str × Field)) (d : List (Val × Val)) (ph : Phase) (ser part : Bool) (anc : List Str)
    (hnd : order.Nodup)
    (hkeys : d.Pairwise fun a b => pyEq b.1 a.1 = false)
    (hslots : ∀ name ∈ order, ∃ g c, Declares env defn name g c ∧
      ∀ v, memberInput c (given d name) ph part = some v →
        (∃ r, process env n g v ph ser (anc ++ ['.' :: name]) = .ok r) ∨
        ∃ e, process env n g v ph ser (anc ++ ['.' :: name]) = .error (.structural e))
    (hbad : (∃ name ∈ order, ∃ r, SlotBad env n defn d ph ser part anc name r) ∨
      (strict = true ∧ ∃ e ∈ d, ∀ name ∈ order, e.1 ≠ .str name)) :
    ∃ (slots : List (Str × Option Val)) (unk : List (Val × Val)), slots.map (·.1) = order ∧
      (∀ x ∈ slots, SlotOk env n defn d ph ser part anc x.1 x.2 ∨
        SlotBad env n defn d ph ser part anc x.1 x.2) ∧
      unk.map (·.1) = (if strict then (d.map (·.1)).filter (fun k => order.all fun n => !pyEq (.str n) k) else []) ∧
      (∀ e ∈ unk, ∃ t m, e.2 = .exc .validation anc [errItem c!"unknown" t m] .none .none) ∧
      structBody env (process env n) f strict order defn d ph ser part anc =
        .error (.structural ⟨.validation, anc, [], .dict (slotDict slots ++ unk), .dict d⟩) := by
  have hms : ∃ ms : List (Str × Option Val × Bool), ms.map (·.1) = order ∧
      (∀ x ∈ ms, memberOut env (process env n) f d defn ph ser part anc x.1 = .ok x.2 ∧
        ((x.2.2 = true ∧ SlotOk env n defn d ph ser part anc x.1 x.2.1) ∨
         (x.2.2 = false ∧ SlotBad env n defn d ph ser part anc x.1 x.2.1))) := by
    clear hnd hbad
    induction order with
    | nil => exact ⟨[], rfl, by simp⟩
    | cons name r ih =>
      obtain ⟨ms, h1, h2⟩ := ih (fun m hm => hslots m (List.mem_cons_of_mem _ hm))
      obtain ⟨g, c, hd, hout⟩ := hslots name (List.mem_cons_self ..)
      have : ∃ x : Option Val × Bool, memberOut env (process env n) f d defn ph ser part anc name = .ok x ∧
        ((x.2 = true ∧ SlotOk env n defn d ph ser part anc name x.1) ∨
         (x.2 = false ∧ SlotBad env n defn d ph ser part anc name x.1)) := by
        by_cases hm : memberMissing c (given d name) ph part
        · obtain ⟨r, hr, ho⟩ := memberOut_of_slotBad (n := n) (ser := ser) (anc := anc) hf hp hd (.inl hm)
          exact ⟨(r, false), ho, .inr ⟨rfl, hr⟩⟩
        · cases hi : memberInput c (given d name) ph part with
          | none =>
            have hs : SlotOk env n defn d ph ser part anc name none := ⟨g, c, hd, hm, .inl ⟨hi, rfl⟩⟩
            exact ⟨(none, true), memberOut_ok_of_slotOk hs, .inl ⟨rfl, hs⟩⟩
          | some v =>
            rcases hout v hi with ⟨w, hw⟩ | ⟨e, he⟩
            · have hs : SlotOk env n defn d ph ser part anc name (some w) :=
                ⟨g, c, hd, hm, .inr ⟨v, w, hi, rfl, hw⟩⟩
              exact ⟨(some w, true), memberOut_ok_of_slotOk hs, .inl ⟨rfl, hs⟩⟩
            · obtain ⟨r, hr, ho⟩ := memberOut_of_slotBad hf hp hd (.inr ⟨v, e, hi, he⟩)
              exact ⟨(r, false), ho, .inr ⟨rfl, hr⟩⟩
      obtain ⟨x, hx1, hx2⟩ := this
      refine ⟨(name, x) :: ms, by simp [h1], ?_⟩
      intro y hy
      rcases List.mem_cons.1 hy with rfl | hy
      · exact ⟨hx1, hx2⟩
      · exact h2 y hy
  obtain ⟨ms, rfl, hms⟩ := hms
  have hseq : seqAll ((ms.map (·.1)).map (memberOut env (process env n) f d defn ph ser part anc)) =
      .ok (ms.map (·.2)) := by
    rw [seqAll_eq_ok, List.map_map, List.map_map]
    exact List.map_congr_left fun x hx => (hms x hx).1
  have hz : ((ms.map (·.1)).zip (ms.map (·.2))).filterMap
      (fun x => x.2.1.map fun v => (Val.str x.1, v)) = slotDict (ms.map fun x => (x.1, x.2.1)) := by
    rw [List.zip_map', List.filterMap_map, slotDict, List.filterMap_map]; rfl
  have hsl : ∀ x ∈ (ms.map fun x => (x.1, x.2.1)), SlotOk env n defn d ph ser part anc x.1 x.2 ∨
        SlotBad env n defn d ph ser part anc x.1 x.2 := by
    intro x hx
    obtain ⟨y, hy, rfl⟩ := List.mem_map.1 hx
    rcases (hms y hy).2 with h | h
    · exact .inl h.2
    · exact .inr h.2
  have hmsbad : (∃ name ∈ ms.map (·.1), ∃ r, SlotBad env n defn d ph ser part anc name r) →
      ((ms.map (·.2)).all (·.2)) = false := by
    rintro ⟨name, hname, r, hr⟩
    obtain ⟨y, hy, rfl⟩ := List.mem_map.1 hname
    rw [List.all_eq_false]
    refine ⟨y.2, List.mem_map_of_mem hy, ?_⟩
    rcases (hms y hy).2 with h | h
    · exact (Slot_exclusive h.2 hr).elim
    · rw [h.1]; simp
  rw [structBody_eq _ _ _ _ _ _ _ _ _ _ _ hnd, hseq, except_bind_ok, hz]
  cases strict with
  | false =>
    refine ⟨ms.map fun x => (x.1, x.2.1), [], by simp, hsl, by simp, by simp, ?_⟩
    have hv : ((ms.map (·.2)).all (·.2)) = false := by
      rcases hbad with h | h
      · exact hmsbad h
      · simp at h
    simp [hv]
  | true =>
    have hsub : ∀ k ∈ leftover (ms.map (·.1)) d, ∀ name ∈ ms.map (·.1), k ≠ .str name :=
      fun k hk => (mem_leftover.1 hk).2
    obtain ⟨unk, u1, u2, u3⟩ := structUnknown_report env f hf hp anc (leftover (ms.map (·.1)) d)
      ⟨leftover (ms.map (·.1)) d, slotDict (ms.map fun x => (x.1, x.2.1)), (ms.map (·.2)).all (·.2)⟩
      (by
        intro e he k hk
        simp only [slotDict, List.mem_filterMap] at he
        obtain ⟨x, hx, hxe⟩ := he
        obtain ⟨y, hy, rfl⟩ := List.mem_map.1 hx
        rw [Option.map_eq_some_iff] at hxe
        obtain ⟨v, _, rfl⟩ := hxe
        cases hpe : pyEq k (Val.str y.1) with
        | false => rfl
        | true => exact absurd (pyEq_str_right.1 hpe) (hsub k hk y.1 (List.mem_map_of_mem hy)))
      (by
        unfold leftover
        apply List.Pairwise.filter
        rw [List.pairwise_map]; exact hkeys)
    refine ⟨ms.map fun x => (x.1, x.2.1), unk, by simp, hsl, by simp only [if_true]; exact u1, u2, ?_⟩
    simp only [if_true]
    rw [u3, except_bind_ok]
    have hv : ((ms.map (·.2)).all (·.2) && (leftover (ms.map (·.1)) d).isEmpty) = false := by
      rcases hbad with h | ⟨_, e, he, h⟩
      · rw [hmsbad h]; rfl
      · have : e.1 ∈ leftover (ms.map (·.1)) d := mem_leftover.2 ⟨⟨e, he, rfl⟩, h⟩
        cases hl : leftover (ms.map (·.1)) d with
        | nil => rw [hl] at this; simp at this
        | cons _ _ => simp
    simp only [hv, Bool.false_eq_true, if_false]

end Scheme
