import Verif.Spec.Assemble
import Verif.Props.Construct

/-! Making structures of objects simulates making them of values. -/

namespace Scheme

namespace Stock

theorem nameMember_named {f : Field} (h : HasName f) (k : Str) : nameMember k f = f := by
  obtain ⟨ch, r, h⟩ := h
  refine setCommon_id fun c hc => ?_
  have : c.name = some (ch :: r) := by
    cases f <;> simp_all [Field.name, Field.common?]
  rw [this]

theorem setCommon_twice {f : Field} {g : Common → Common} (h : ∀ c, g (g c) = g c) : (f.setCommon g).setCommon g = f.setCommon g := by
  cases f <;> simp only [Field.setCommon, h]

theorem named_or {f : Field} (k : Str) : nameMember k (nameMember k f) = nameMember k f := by
  refine setCommon_twice fun c => ?_
  cases hn : c.name with
  | none => dsimp only; cases k <;> rfl
  | some s =>
    cases s with
    | nil => dsimp only; cases k <;> rfl
    | cons ch r => dsimp only; rw [hn]

/-- Naming twice, by names that agree unless there is a name already. -/
theorem rename_again {f : Field} {k k' : Str} (h : ¬ HasName f → k' = k) : nameMember k' (nameMember k f) = nameMember k f := by
  by_cases hn : HasName f
  · rw [nameMember_named hn k, nameMember_named hn]
  · rw [h hn, named_or]

theorem fieldAt_set {l : List Field} {p : Stock} {i j : Nat} {f : Field} (hi : i < p.fields.length) (hl : l = p.fields.set i f) {d o} :
    fieldAt ⟨l, d, o⟩ j = if j = i then f else p.fieldAt j := by
  subst hl
  unfold fieldAt
  dsimp only
  by_cases h : j = i
  · subst h; rw [if_pos rfl, List.getElem?_set_self hi]; rfl
  · rw [if_neg h, List.getElem?_set_ne (fun e => h e.symm)]

/-- What happens to the field objects of `p`, of which those in `es` may be named: `q` is a state in between. -/
structure Between (p : Stock) (es : List (Str × Nat)) (q : Stock) : Prop where
  length : p.fields.length ≤ q.fields.length
  same : ∀ i, i < p.fields.length →
    q.fieldAt i = p.fieldAt i ∨ ∃ k, (k, i) ∈ es ∧ q.fieldAt i = nameMember k (p.fieldAt i)

/-- What is kept on the way from `q` to `q'`. -/
structure Keeps (p : Stock) (es : List (Str × Nat)) (q q' : Stock) : Prop where
  length : q.fields.length ≤ q'.fields.length
  named : ∀ e ∈ es, q.fieldAt e.2 = nameMember e.1 (p.fieldAt e.2) → q'.fieldAt e.2 = nameMember e.1 (p.fieldAt e.2)
  new : ∀ i, p.fields.length ≤ i → i < q.fields.length → q'.fieldAt i = q.fieldAt i

theorem Keeps.refl {p : Stock} {es : List (Str × Nat)} (q : Stock) : Keeps p es q q := ⟨Nat.le_refl _, fun _ _ h => h, fun _ _ _ => rfl⟩

theorem Keeps.trans {p : Stock} {es : List (Str × Nat)} {a b c : Stock} (h : Keeps p es a b) (h' : Keeps p es b c) : Keeps p es a c :=
  ⟨Nat.le_trans h.length h'.length, fun e he hq => h'.named e he (h.named e he hq),
    fun i hi hl => (h'.new i hi (Nat.lt_of_lt_of_le hl h.length)).trans (h.new i hi hl)⟩

theorem Tidy.lt {p : Stock} {es : List (Str × Nat)} (h : Tidy p es) {e : Str × Nat} (he : e ∈ es) : e.2 < p.fields.length := by
  obtain ⟨f, _, hf, _⟩ := h.field e he
  exact (List.getElem?_eq_some_iff.1 hf).1

/-- Naming one field. -/
theorem rename_step {p q : Stock} {es : List (Str × Nat)} (ht : Tidy p es) (hb : Between p es q) {e : Str × Nat} (he : e ∈ es) :
    Between p es (q.rename e.1 e.2) ∧ Keeps p es q (q.rename e.1 e.2) ∧
    (q.rename e.1 e.2).fieldAt e.2 = nameMember e.1 (p.fieldAt e.2) ∧ (q.rename e.1 e.2).dicts = q.dicts ∧
    (q.rename e.1 e.2).outers = q.outers ∧ (q.rename e.1 e.2).fields.length = q.fields.length := by
  have hlt := ht.lt he
  have hlt' : e.2 < q.fields.length := Nat.lt_of_lt_of_le hlt hb.length
  have hget : q.fields[e.2]? = some (q.fieldAt e.2) := by
    unfold fieldAt; rw [List.getElem?_eq_getElem hlt']; rfl
  have hr : q.rename e.1 e.2 = ⟨q.fields.set e.2 (nameMember e.1 (q.fieldAt e.2)), q.dicts, q.outers⟩ := by
    unfold rename; rw [hget]
  have hval : nameMember e.1 (q.fieldAt e.2) = nameMember e.1 (p.fieldAt e.2) := by
    rcases hb.same e.2 hlt with h | ⟨k, hk, h⟩
    · rw [h]
    · rw [h]
      by_cases hn : HasName (p.fieldAt e.2)
      · rw [nameMember_named hn, nameMember_named hn]
      · have : k = e.1 := ht.name (k, e.2) hk e he rfl hn
        rw [this, named_or]
  have hat : ∀ j, (q.rename e.1 e.2).fieldAt j = if j = e.2 then nameMember e.1 (p.fieldAt e.2) else q.fieldAt j := by
    intro j
    rw [hr, fieldAt_set hlt' rfl, hval]
  have hlen : (q.rename e.1 e.2).fields.length = q.fields.length := by rw [hr]; exact List.length_set
  refine ⟨⟨by rw [hlen]; exact hb.length, fun i hi => ?_⟩, ⟨by rw [hlen], fun e' he' hq => ?_, fun i hi _ => ?_⟩, ?_, by rw [hr],
    by rw [hr], hlen⟩
  · rw [hat]
    by_cases h : i = e.2
    · subst h; rw [if_pos rfl]; exact .inr ⟨e.1, he, rfl⟩
    · rw [if_neg h]; exact hb.same i hi
  · rw [hat]
    by_cases h : e'.2 = e.2
    · rw [if_pos h, h]
      by_cases hn : HasName (p.fieldAt e.2)
      · rw [nameMember_named hn, nameMember_named hn]
      · rw [ht.name e he e' he' h.symm hn]
    · rw [if_neg h]; exact hq
  · rw [hat, if_neg (by omega)]
  · rw [hat, if_pos rfl]

/-- Naming the members of a dict. -/
theorem prevalidate_step {p : Stock} {es : List (Str × Nat)} (ht : Tidy p es) :
    ∀ {l : List (Str × Nat)} {q : Stock}, (∀ e ∈ l, e ∈ es) → Between p es q →
    Between p es (q.prevalidate l) ∧ Keeps p es q (q.prevalidate l) ∧
    (∀ e ∈ l, (q.prevalidate l).fieldAt e.2 = nameMember e.1 (p.fieldAt e.2)) ∧ (q.prevalidate l).dicts = q.dicts ∧
    (q.prevalidate l).outers = q.outers ∧ (q.prevalidate l).fields.length = q.fields.length
  | [], q, _, hb => ⟨hb, .refl _, (fun _ h => by cases h), rfl, rfl, rfl⟩
  | e :: l, q, hl, hb => by
    have he := hl e (List.mem_cons_self ..)
    obtain ⟨h1, h2, h3, h4, h5, h6⟩ := rename_step ht hb he
    obtain ⟨k1, k2, k3, k4, k5, k6⟩ := prevalidate_step ht (l := l) (q := q.rename e.1 e.2) (fun x hx => hl x (List.mem_cons_of_mem _ hx)) h1
    refine ⟨k1, h2.trans k2, fun x hx => ?_, k4.trans h4, k5.trans h5, k6.trans h6⟩
    rcases List.mem_cons.1 hx with rfl | hx
    · exact k2.named _ he h3
    · exact k3 x hx

theorem prevalidated_map {env : Env} {p : Stock} : ∀ {l : List (Str × Nat)}, (∀ e ∈ l, ∃ c, (p.fieldAt e.2).common? = some c) →
    prevalidated env (l.map fun e => (e.1, p.fieldAt e.2)) = l.map fun e => (e.1, nameMember e.1 (p.fieldAt e.2))
  | [], _ => rfl
  | e :: l, h => by
    obtain ⟨c, hc⟩ := h e (List.mem_cons_self ..)
    have ih := prevalidated_map (env := env) (l := l) fun x hx => h x (List.mem_cons_of_mem _ hx)
    have hr : resolve env (p.fieldAt e.2) = some (p.fieldAt e.2) := by
      generalize p.fieldAt e.2 = f at hc
      cases f <;> first | rfl | cases hc
    rw [List.map_cons, prevalidated, ih, hr]
    rfl

theorem map_keySet {α β : Type} (g : α → β) (k : Str) (v : α) : ∀ l : List (Str × α),
    (keySet k v l).map (fun e => (e.1, g e.2)) = keySet k (g v) (l.map fun e => (e.1, g e.2))
  | [] => rfl
  | (k', v') :: r => by
    simp only [keySet, List.map_cons]
    split
    · rfl
    · rw [List.map_cons, map_keySet g k v r]

theorem Tidy.sub {p : Stock} {es es' : List (Str × Nat)} (h : Tidy p es) (hs : ∀ e ∈ es', e ∈ es) : Tidy p es' :=
  ⟨fun e he => h.field e (hs e he), fun e he e' he' => h.name e (hs e he) e' (hs e' he')⟩

theorem Tidy.common {p : Stock} {es : List (Str × Nat)} (h : Tidy p es) {e : Str × Nat} (he : e ∈ es) : ∃ c, (p.fieldAt e.2).common? = some c := by
  obtain ⟨f, c, hf, hc⟩ := h.field e he
  exact ⟨c, by unfold fieldAt; rw [hf]; exact hc⟩

/-- Making the variants. -/
theorem assembleVariants_step {env : Env} {n : Nat} {disc : Field} {on : Str} {p : Stock} {es : List (Str × Nat)} (ht : Tidy p es) :
    ∀ {r : List (Val × Nat)} {q : Stock}, (r.map (·.2)).Nodup → (∀ e ∈ p.entriesOf (r.map (·.2)), e ∈ es) →
    (∀ d ∈ r.map (·.2), q.dicts[d]? = p.dicts[d]? ∧ d < p.dicts.length) → Between p es q →
    (∀ e, builtVariants env n disc on (p.variants r) = .error e → (assembleVariants env n disc on r q).1 = .error e) ∧
    (∀ vs, builtVariants env n disc on (p.variants r) = .ok vs →
      (assembleVariants env n disc on r q).1 = .ok () ∧ (assembleVariants env n disc on r q).2.variants r = vs ∧
      Keeps p es q (assembleVariants env n disc on r q).2 ∧ Between p es (assembleVariants env n disc on r q).2 ∧
      (∀ d, d ∉ r.map (·.2) → (assembleVariants env n disc on r q).2.dicts[d]? = q.dicts[d]?) ∧
      (assembleVariants env n disc on r q).2.outers = q.outers)
  | [], q, _, _, _, hb => ⟨(fun e h => by cases h), fun vs h => by
      cases h; exact ⟨rfl, rfl, .refl _, hb, fun _ _ => rfl, rfl⟩⟩
  | (id, d) :: r, q, hn, hes, hd, hb => by
    obtain ⟨hd1, hd2⟩ := hd d (List.mem_cons_self ..)
    rw [List.map_cons, List.nodup_cons] at hn
    obtain ⟨hnd, hn⟩ := hn
    have hget : q.dicts[d]? = some (p.dicts[d]) := by rw [hd1]; exact List.getElem?_eq_getElem hd2
    have hentries : p.dicts[d]?.getD [] = p.dicts[d] := by rw [List.getElem?_eq_getElem hd2]; rfl
    have hl : ∀ e ∈ p.dicts[d], e ∈ es := fun e he => hes e (by
      unfold entriesOf; rw [List.mem_flatMap]; exact ⟨d, List.mem_cons_self .., by rw [hentries]; exact he⟩)
    obtain ⟨k1, k2, k3, k4, k5, k6⟩ := prevalidate_step ht hl hb
    simp only [variants, List.map_cons, builtVariants, assembleVariants, hget]
    cases hc : cloneWith env n disc fun c => { c with constant := id } with
    | error e =>
      refine ⟨fun e' h => ?_, fun vs h => nomatch h⟩
      simp only [except_bind_error, Except.error.injEq] at h
      rw [h]
    | ok member =>
      simp only [except_bind_ok]
      generalize hq1 : (⟨(q.prevalidate p.dicts[d]).fields ++ [member],
        q.dicts.set d (keySet on (q.prevalidate p.dicts[d]).fields.length p.dicts[d]), (q.prevalidate p.dicts[d]).outers⟩ : Stock) = q1
      have hdlt : d < q.dicts.length := (List.getElem?_eq_some_iff.1 hget).1
      have hat : ∀ i, i < q.fields.length → q1.fieldAt i = (q.prevalidate p.dicts[d]).fieldAt i := by
        intro i hi
        subst hq1
        unfold fieldAt
        dsimp only
        rw [List.getElem?_append_left (by rw [k6]; exact hi)]
      have hlen : q1.fields.length = q.fields.length + 1 := by subst hq1; simp [k6]
      have hb1 : Between p es q1 := ⟨by have := hb.length; omega, fun i hi => by
        rw [hat i (by have := hb.length; omega)]; exact k1.same i hi⟩
      have hk1 : Keeps p es q q1 := ⟨by omega, fun e he h => by
          rw [hat _ (Nat.lt_of_lt_of_le (ht.lt he) hb.length)]; exact k2.named e he h,
        fun i hi hlt => by rw [hat i hlt]; exact k2.new i hi hlt⟩
      obtain ⟨ih1, ih2⟩ := assembleVariants_step (env := env) (n := n) (disc := disc) (on := on) ht (r := r) (q := q1) hn
        (fun e he => hes e (by
          unfold entriesOf at he ⊢
          rw [List.map_cons, List.flatMap_cons]
          exact List.mem_append_right _ he))
        (fun d' hd' => by
          obtain ⟨h1, h2⟩ := hd d' (List.mem_cons_of_mem _ hd')
          refine ⟨?_, h2⟩
          rw [← h1]
          subst hq1
          have hne : d ≠ d' := fun e => hnd (by rw [e]; exact hd')
          exact List.getElem?_set_ne hne)
        hb1
      constructor
      · intro e h
        cases hr : builtVariants env n disc on (p.variants r) with
        | error e' =>
          simp only [variants] at hr
          rw [hr] at h
          cases h
          exact ih1 _ (by simp only [variants]; exact hr)
        | ok vs =>
          simp only [variants] at hr
          rw [hr] at h
          cases h
      · intro vs h
        cases hr : builtVariants env n disc on (p.variants r) with
        | error e' =>
          simp only [variants] at hr
          rw [hr] at h
          cases h
        | ok vs' =>
          obtain ⟨j1, j2, j3, j4, j5, j6⟩ := ih2 vs' hr
          simp only [variants] at hr
          rw [hr] at h
          simp only [except_bind_ok] at h
          cases h
          generalize assembleVariants env n disc on r q1 = out at j1 j2 j3 j4 j5 j6 ⊢
          refine ⟨j1, ?_, hk1.trans j3, j4, fun d' hd' => ?_, ?_⟩
          · have hhead : out.2.members d = keySet on member (prevalidated env (p.members d)) := by
              have hcell : out.2.dicts[d]? = some (keySet on (q.prevalidate p.dicts[d]).fields.length p.dicts[d]) := by
                rw [j5 d hnd]
                subst hq1
                exact List.getElem?_set_self hdlt
              have hnew : out.2.fieldAt (q.prevalidate p.dicts[d]).fields.length = member := by
                rw [k6, j3.new _ hb.length (by omega)]
                subst hq1
                unfold fieldAt
                dsimp only
                rw [List.getElem?_append_right (by rw [k6]), k6]
                simp
              unfold members
              rw [hcell, hentries, prevalidated_map fun e he => ht.common (hl e he)]
              show List.map _ (keySet _ _ _) = _
              rw [map_keySet, hnew]
              congr 1
              refine List.map_congr_left fun e he => ?_
              have h3 : q1.fieldAt e.2 = nameMember e.1 (p.fieldAt e.2) := by
                rw [hat _ (Nat.lt_of_lt_of_le (ht.lt (hl e he)) hb.length)]; exact k3 e he
              rw [j3.named e (hl e he) h3]
            rw [hhead]
            congr 1
          · have hne : d' ∉ r.map (·.2) := fun h => hd' (List.mem_cons_of_mem _ h)
            rw [j5 d' hne]
            subst hq1
            have hne' : d ≠ d' := fun e => hd' (by rw [← e]; exact List.mem_cons_self ..)
            exact List.getElem?_set_ne hne'
          · rw [j6]
            subst hq1
            exact k5

end Stock

end Scheme
