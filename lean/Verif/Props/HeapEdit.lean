import Verif.Spec.HeapEdit
import Verif.Props.Assemble
import Verif.Props.Edit
import Verif.Props.CloneParams

/-! C95: editing structures that share their fields. -/

namespace Scheme

open Stock

namespace Stock

theorem fieldArg_some {p : Stock} {a : Option Nat} {i : Nat} {f : Field} (h : p.fieldArg a = some (i, f)) :
    a = some i ∧ i < p.fields.length ∧ p.fields[i]? = some f ∧ p.fieldAt i = f ∧ f.common?.isSome = true ∧ p.given a = some f := by
  cases a with
  | none => cases h
  | some j =>
    unfold fieldArg at h
    cases hf : p.fields[j]? with
    | none => simp [hf] at h
    | some g =>
      simp only [hf] at h
      split at h
      · cases h
        rename_i hc
        have hfa : p.fieldAt i = f := by unfold fieldAt; rw [hf]; rfl
        exact ⟨rfl, (List.getElem?_eq_some_iff.1 hf).1, hf, hfa, hc, by unfold given; dsimp only; rw [hfa, if_pos hc]⟩
      · cases h

theorem fieldArg_none {p : Stock} {a : Option Nat} (h : p.fieldArg a = none) : p.given a = none := by
  cases a with
  | none => rfl
  | some j =>
    unfold fieldArg at h
    unfold given fieldAt
    dsimp only
    cases hf : p.fields[j]? with
    | none => rfl
    | some g =>
      simp only [hf] at h
      by_cases hc : g.common?.isSome = true
      · rw [if_pos hc] at h; cases h
      · exact if_neg hc

theorem lookup_members (p : Stock) (k : Str) (l : List (Str × Nat)) :
    (l.lookup k).isSome = ((l.map fun e => (e.1, p.fieldAt e.2)).lookup k).isSome := by
  induction l with
  | nil => rfl
  | cons e r ih =>
    rw [List.map_cons, List.lookup_cons, List.lookup_cons]
    cases k == e.1
    · exact ih
    · rfl

theorem members_lookup (p : Stock) (d : Nat) (k : Str) : ((p.entries d).lookup k).isSome = ((p.members d).lookup k).isSome :=
  lookup_members p k _

theorem put_entries {p : Stock} {d : Nat} (hd : d < p.dicts.length) (k : Str) (i : Nat) :
    (p.put d k i).entries d = keySet k i (p.entries d) := by
  unfold put entries
  dsimp only
  rw [List.getElem?_set_self hd]
  rfl

theorem put_members {p : Stock} {d : Nat} (hd : d < p.dicts.length) (k : Str) (i : Nat) :
    (p.put d k i).members d = keySet k (p.fieldAt i) (p.members d) := by
  show ((p.put d k i).entries d).map _ = _
  rw [put_entries hd]
  exact map_keySet p.fieldAt k i (p.entries d)

theorem InPlace.refl (p : Stock) (d : Nat) (l : List (Str × Option Nat)) : InPlace p d l p :=
  ⟨List.prefix_refl _, rfl, fun _ _ => rfl, rfl, fun k i h => .inl ⟨k, h⟩⟩

theorem fieldAt_prefix {p q : Stock} (h : p.fields <+: q.fields) {i : Nat} (hi : i < p.fields.length) : q.fieldAt i = p.fieldAt i := by
  obtain ⟨r, hr⟩ := h
  unfold fieldAt
  rw [← hr, List.getElem?_append_left hi]

theorem members_prefix {p q : Stock} (h : p.fields <+: q.fields) {d : Nat} (hd : q.dicts[d]? = p.dicts[d]?) (hm : HasMembers p d) :
    q.members d = p.members d := by
  unfold members
  rw [hd]
  exact List.map_congr_left fun e he => by rw [fieldAt_prefix h (hm.2 e.1 e.2 he)]

theorem InPlace.put {p q : Stock} {d : Nat} {l : List (Str × Option Nat)} (h : InPlace p d l q) (hd : d < p.dicts.length) {k : Str} {i : Nat}
    (hi : (∃ k', (k', some i) ∈ l) ∨ (p.fields.length ≤ i ∧ i < q.fields.length)) : InPlace p d l (q.put d k i) := by
  refine ⟨h.fields, by unfold Stock.put; simpa using h.length, fun d' hd' => ?_, h.outers, fun k' i' he => ?_⟩
  · exact (List.getElem?_set_ne fun e => hd' e.symm).trans (h.dict d' hd')
  · have he : (k', i') ∈ (q.put d k i).entries d := he
    rw [put_entries (by rw [h.length]; exact hd)] at he
    rcases mem_keySet_or he with he | he
    · cases he; exact .inr hi
    · exact h.entry k' i' he

theorem given_prefix {p q : Stock} (h : p.fields <+: q.fields) {a : Option Nat} (ha : ∀ i, a = some i → i < p.fields.length) :
    q.given a = p.given a := by
  cases a with
  | none => rfl
  | some i => unfold given; dsimp only; rw [fieldAt_prefix h (ha i rfl)]

theorem givens_prefix {p q : Stock} (h : p.fields <+: q.fields) {l : List (Str × Option Nat)} (hl : Exist p l) : q.givens l = p.givens l :=
  List.map_congr_left fun e he => by rw [given_prefix h fun i hi => hl e.1 i (by rw [← hi]; exact he)]

end Stock

/-! ### In place -/

/-- C95. `insert` has the outcome it has on values, and edits the structure in place. -/
theorem C95_insert {p : Stock} {d : Nat} (hd : d < p.dicts.length) (a : Option Nat) (overwrite : Bool) :
    (match raised (p.insertAt d a overwrite).1 with
      | none => .ok ((p.insertAt d a overwrite).2.members d)
      | some e => .error e) = insertField (p.members d) (p.given a) overwrite ∧
    InPlace p d [([], a)] (p.insertAt d a overwrite).2 := by
  unfold insertAt
  cases ha : p.fieldArg a with
  | none => rw [fieldArg_none ha]; exact ⟨rfl, .refl ..⟩
  | some x =>
    obtain ⟨i, f⟩ := x
    obtain ⟨rfl, hlt, hf, hfa, hc, hg⟩ := fieldArg_some ha
    rw [hg]
    dsimp only
    unfold insertField
    cases hn : f.name with
    | none => dsimp only; rw [hn]; exact ⟨rfl, .refl ..⟩
    | some s =>
      cases s with
      | nil => dsimp only; rw [hn]; exact ⟨rfl, .refl ..⟩
      | cons ch s =>
        dsimp only
        rw [hn]
        dsimp only
        have : ((p.entries d).lookup (ch :: s)).isNone = ((p.members d).lookup (ch :: s)).isNone := by
          have := members_lookup p d (ch :: s)
          cases h1 : (p.entries d).lookup (ch :: s) <;> cases h2 : (p.members d).lookup (ch :: s) <;> simp_all
        rw [← this]
        by_cases hb : (overwrite || ((p.entries d).lookup (ch :: s)).isNone) = true
        · rw [if_pos hb, if_pos hb]
          refine ⟨?_, (InPlace.refl ..).put hd (.inl ⟨[], List.mem_cons_self ..⟩)⟩
          show Except.ok ((p.put d (ch :: s) i).members d) = _
          rw [put_members hd, hfa]
        · rw [if_neg hb, if_neg hb]
          exact ⟨rfl, .refl ..⟩

theorem removeAt_spec {p0 : Stock} {d : Nat} (hd : d < p0.dicts.length) : ∀ (names : List Str) (p : Stock), InPlace p0 d [] p →
    (p.removeAt d names).members d = removeNames (p.members d) names ∧ InPlace p0 d [] (p.removeAt d names) ∧ (p.removeAt d names).fields = p.fields
  | [], p, h => ⟨rfl, h, rfl⟩
  | name :: r, p, h => by
    have hd' : d < p.dicts.length := by rw [h.length]; exact hd
    unfold removeAt removeNames
    rw [members_lookup]
    by_cases hl : ((p.members d).lookup name).isSome = true
    · rw [if_pos hl, if_pos hl]
      have hm : ({ p with dicts := p.dicts.set d ((p.entries d).filter fun e => e.1 != name) } : Stock).members d =
          (p.members d).filter fun e => e.1 != name := by
        unfold members
        dsimp only
        rw [List.getElem?_set_self hd']
        show List.map _ (List.filter _ (p.entries d)) = List.filter _ (List.map _ (p.entries d))
        rw [List.filter_map]
        rfl
      have := removeAt_spec hd r { p with dicts := p.dicts.set d ((p.entries d).filter fun e => e.1 != name) }
        ⟨h.fields, by simpa using h.length, fun d' hne => (List.getElem?_set_ne fun e => hne e.symm).trans (h.dict d' hne), h.outers,
          fun k i he => by
            dsimp only at he
            rw [List.getElem?_set_self hd'] at he
            exact h.entry k i (List.mem_filter.1 he).1⟩
      rw [hm] at this
      exact this
    · rw [if_neg hl, if_neg hl]
      exact removeAt_spec hd r p h

/-- C95. `remove` has the outcome it has on values, and edits the structure in place. -/
theorem C95_remove {p : Stock} {d : Nat} (hd : d < p.dicts.length) (names : List Str) :
    (p.removeAt d names).members d = removeNames (p.members d) names ∧ InPlace p d [] (p.removeAt d names) ∧
      (p.removeAt d names).fields = p.fields :=
  removeAt_spec hd names p (.refl ..)

theorem mergeAt_spec {env : Env} {n : Nat} {prefer : Bool} {p0 : Stock} {d : Nat} (hd : d < p0.dicts.length) {all : List (Str × Option Nat)}
    (hall : Exist p0 all) : ∀ (l : List (Str × Option Nat)) (p : Stock), (∀ e ∈ l, e ∈ all) → InPlace p0 d all p → HasMembers p d →
    ((mergeAt env n prefer d l p).2.members d, raised (mergeAt env n prefer d l p).1) = mergeLoop env n prefer (p.members d) (p.givens l) ∧
    InPlace p0 d all (mergeAt env n prefer d l p).2 ∧ HasMembers (mergeAt env n prefer d l p).2 d
  | [], p, _, h, hm => ⟨rfl, h, hm⟩
  | (name, a) :: r, p, hl, h, hm => by
    have hr : ∀ e ∈ r, e ∈ all := fun e he => hl e (List.mem_cons_of_mem _ he)
    have hex : Exist p r := fun k i he => Nat.lt_of_lt_of_le (hall k i (hr _ he)) h.fields.length_le
    unfold mergeAt
    cases ha : p.fieldArg a with
    | none =>
      refine ⟨?_, h, hm⟩
      show _ = mergeLoop env n prefer _ ((name, p.given a) :: p.givens r)
      rw [fieldArg_none ha]; rfl
    | some x =>
      obtain ⟨i, f⟩ := x
      obtain ⟨rfl, hlt, hf, hfa, hc, hg⟩ := fieldArg_some ha
      show _ = mergeLoop env n prefer _ ((name, p.given (some i)) :: p.givens r) ∧ _
      rw [hg]
      dsimp only [mergeLoop]
      rw [members_lookup]
      by_cases hin : (((p.members d).lookup name).isSome && !prefer) = true
      · rw [if_pos hin, if_pos hin]
        exact ⟨rfl, h, hm⟩
      · rw [if_neg hin, if_neg hin]
        by_cases hn : f.name = some name
        · rw [if_pos hn, if_pos hn]
          have hp : InPlace p0 d all (p.put d name i) := h.put hd (.inl ⟨name, hl _ (List.mem_cons_self ..)⟩)
          have := mergeAt_spec (env := env) (n := n) (prefer := prefer) hd hall r (p.put d name i) hr hp
            ⟨by rw [hp.length]; exact hd, fun k j he => by
              have he : (k, j) ∈ (p.put d name i).entries d := he
              rw [put_entries hm.1] at he
              rcases mem_keySet_or he with he | he
              · cases he; exact hlt
              · exact hm.2 k j he⟩
          rw [put_members hm.1, hfa] at this
          rw [show (p.put d name i).givens r = p.givens r from rfl] at this
          exact this
        · rw [if_neg hn, if_neg hn]
          cases hcl : clone env n f with
          | error e => exact ⟨rfl, h, hm⟩
          | ok g =>
            dsimp only
            have hq : InPlace p0 d all { p with fields := p.fields ++ [Scheme.rename name g] } :=
              ⟨h.fields.trans (List.prefix_append ..), h.length, h.dict, h.outers, fun k i he => by
                rcases h.entry k i he with h1 | h1 | h1
                · exact .inl h1
                · exact .inr (.inl h1)
                · exact .inr (.inr ⟨h1.1, by simp only [List.length_append]; omega⟩)⟩
            have hp := hq.put hd (k := name) (i := p.fields.length) (.inr ⟨h.fields.length_le, by simp⟩)
            have hpre : p.fields <+: ({ p with fields := p.fields ++ [Scheme.rename name g] } : Stock).fields := List.prefix_append ..
            have := mergeAt_spec (env := env) (n := n) (prefer := prefer) hd hall r
              (({ p with fields := p.fields ++ [Scheme.rename name g] } : Stock).put d name p.fields.length) hr hp
              ⟨by rw [hp.length]; exact hd, fun k j he => by
                have he : (k, j) ∈ (({ p with fields := p.fields ++ [Scheme.rename name g] } : Stock).put d name p.fields.length).entries d := he
                rw [put_entries (p := { p with fields := p.fields ++ [Scheme.rename name g] }) hm.1] at he
                show j < (p.fields ++ [_]).length
                rw [List.length_append]
                rcases mem_keySet_or he with he | he
                · cases he; simp
                · have := hm.2 k j he; omega⟩
            rw [put_members (p := { p with fields := p.fields ++ [Scheme.rename name g] }) hm.1,
              members_prefix hpre rfl hm,
              show (({ p with fields := p.fields ++ [Scheme.rename name g] } : Stock).put d name p.fields.length).givens r =
                ({ p with fields := p.fields ++ [Scheme.rename name g] } : Stock).givens r from rfl,
              givens_prefix hpre hex,
              show ({ p with fields := p.fields ++ [Scheme.rename name g] } : Stock).fieldAt p.fields.length = Scheme.rename name g by
                unfold Stock.fieldAt; simp] at this
            exact this

/-- C95. `merge` has the outcome it has on values, and edits the structure in place: fields entered under another name are
copied. -/
theorem C95_merge (env : Env) (n : Nat) (prefer : Bool) {p : Stock} {d : Nat} (hm : HasMembers p d) {extra : List (Str × Option Nat)}
    (hex : Exist p extra) :
    ((mergeAt env n prefer d extra p).2.members d, raised (mergeAt env n prefer d extra p).1) =
      mergeLoop env n prefer (p.members d) (p.givens extra) ∧
    InPlace p d extra (mergeAt env n prefer d extra p).2 :=
  let h := mergeAt_spec (env := env) (n := n) (prefer := prefer) hm.1 hex extra p (fun _ h => h) (.refl ..) hm
  ⟨h.1, h.2.1⟩

/-- C95. Editing one structure in place leaves all others alone. -/
theorem C95_others {p q : Stock} {d d' : Nat} {l : List (Str × Option Nat)} (h : InPlace p d l q) (hd : d' ≠ d) (hm : HasMembers p d') :
    q.members d' = p.members d' :=
  members_prefix h.fields (h.dict d' hd) hm

/-! ### Copies -/

namespace Stock

theorem named_common {f : Field} (h : HasName f) : ∃ c, f.common? = some c := by
  obtain ⟨ch, r, h⟩ := h
  cases f with
  | undef s => cases h
  | _ => exact ⟨_, rfl⟩

theorem cloneChild_named {env : Env} {r : Field → Except PyErr Field} {f : Field} (h : HasName f) : cloneChild env r f = r f := by
  obtain ⟨c, hc⟩ := named_common h
  cases f with
  | undef s => cases hc
  | _ => rfl

theorem clone_named {env : Env} {n : Nat} {f g : Field} (h : HasName f) (hc : clone env n f = .ok g) : HasName g := by
  obtain ⟨ch, r, h⟩ := h
  obtain ⟨c, c', h1, h2, h3, -⟩ := clone_kept env n f g hc
  refine ⟨ch, r, ?_⟩
  unfold Field.name at h ⊢
  rw [h1] at h
  rw [h2]
  exact h3.trans h

theorem cloneDefn_names {env : Env} {n : Nat} : ∀ {l l' : List (Str × Field)}, cloneDefn env (clone env n) l = .ok l' →
    (∀ e ∈ l, HasName e.2) → ∀ e ∈ l', HasName e.2
  | [], _, h, _ => by cases h; intro e he; cases he
  | (k, f) :: r, l', h, hn => by
    have hf := hn (k, f) (List.mem_cons_self ..)
    simp only [cloneDefn, except_bind_eq_ok, cloneChild_named hf] at h
    obtain ⟨g, hg, r', hr', h⟩ := h
    cases h
    intro e he
    rcases List.mem_cons.1 he with rfl | he
    · dsimp only
      rw [nameMember_named (clone_named hf hg)]
      exact clone_named hf hg
    · exact cloneDefn_names hr' (fun e he => hn e (List.mem_cons_of_mem _ he)) e he

theorem copyMembers_spec {env : Env} {n : Nat} {p : Stock} : ∀ (es : List (Str × Nat)) (pre : List Field) (memo : List (Nat × Nat)),
    (∀ e ∈ es, HasName (p.fieldAt e.2)) →
    (∀ i j, memo.lookup i = some j → ∃ g, clone env n (p.fieldAt i) = .ok g ∧ pre[j]? = some g) →
    cloneDefn env (clone env n) (es.map fun e => (e.1, p.fieldAt e.2)) =
      (copyMembers env n p pre.length memo es).map fun x => x.2.map fun e => (e.1, ((pre ++ x.1)[e.2]?).getD (.undef 0))
  | [], _, _, _, _ => rfl
  | (k, i) :: r, pre, memo, hn, hmemo => by
    have hi := hn (k, i) (List.mem_cons_self ..)
    have hr : ∀ e ∈ r, HasName (p.fieldAt e.2) := fun e he => hn e (List.mem_cons_of_mem _ he)
    rw [List.map_cons, cloneDefn, cloneChild_named hi]
    unfold copyMembers
    cases hl : memo.lookup i with
    | some j =>
      obtain ⟨g, hg, hj⟩ := hmemo i j hl
      have ih := copyMembers_spec r pre memo hr hmemo
      dsimp only
      rw [hg, ih]
      cases hx : copyMembers env n p pre.length memo r with
      | error e => rfl
      | ok x =>
        have hlt := (List.getElem?_eq_some_iff.1 hj).1
        show Except.ok ((k, nameMember k g) :: _) = Except.ok ((k, ((pre ++ x.1)[j]?).getD (.undef 0)) :: _)
        rw [nameMember_named (clone_named hi hg), List.getElem?_append_left hlt, hj]
        rfl
    | none =>
      dsimp only
      have hfa : p.fields[i]?.getD (.undef 0) = p.fieldAt i := rfl
      rw [hfa, cloneChild_named hi]
      cases hg : clone env n (p.fieldAt i) with
      | error e => rfl
      | ok g =>
        have ih := copyMembers_spec r (pre ++ [g]) ((i, pre.length) :: memo) hr (fun i' j' hl' => by
          rw [List.lookup_cons] at hl'
          by_cases hii : i' = i
          · subst hii
            simp only [beq_self_eq_true, Option.some.injEq] at hl'
            subst hl'
            exact ⟨g, hg, by simp⟩
          · rw [show (i' == i) = false by simpa using hii] at hl'
            obtain ⟨g', h1, h2⟩ := hmemo i' j' hl'
            exact ⟨g', h1, by rw [List.getElem?_append_left (List.getElem?_eq_some_iff.1 h2).1]; exact h2⟩)
        rw [List.length_append, List.length_singleton] at ih
        simp only [bind, Except.bind, pure, Except.pure]
        rw [ih]
        cases hx : copyMembers env n p (pre.length + 1) ((i, pre.length) :: memo) r with
        | error e => rfl
        | ok x =>
          show Except.ok ((k, nameMember k g) :: List.map _ _) = Except.ok ((k, ((pre ++ g :: x.1)[pre.length]?).getD (.undef 0)) :: List.map _ _)
          rw [nameMember_named (clone_named hi hg), List.append_assoc, List.singleton_append, List.getElem?_append_right (Nat.le_refl _),
            Nat.sub_self]
          rfl

theorem copyMembers_bounds {env : Env} {n : Nat} {p : Stock} {L : Nat} : ∀ {es : List (Str × Nat)} {base : Nat} {memo : List (Nat × Nat)}
    {x : List Field × List (Str × Nat)}, copyMembers env n p base memo es = .ok x → L ≤ base →
    (∀ i j, memo.lookup i = some j → L ≤ j ∧ j < base) → ∀ e ∈ x.2, L ≤ e.2 ∧ e.2 < base + x.1.length
  | [], _, _, x, h, _, _ => by cases h; intro e he; cases he
  | (k, i) :: r, base, memo, x, h, hb, hm => by
    unfold copyMembers at h
    cases hl : memo.lookup i with
    | some j =>
      rw [hl] at h
      dsimp only at h
      cases hx : copyMembers env n p base memo r with
      | error e => rw [hx] at h; cases h
      | ok y =>
        rw [hx] at h
        cases h
        intro e he
        rcases List.mem_cons.1 he with rfl | he
        · have := hm i j hl
          exact ⟨this.1, by dsimp only; omega⟩
        · exact copyMembers_bounds hx hb hm e he
    | none =>
      rw [hl] at h
      dsimp only at h
      cases hg : cloneChild env (clone env n) (p.fields[i]?.getD (.undef 0)) with
      | error e => rw [hg] at h; cases h
      | ok g =>
        simp only [hg, bind, Except.bind, pure, Except.pure] at h
        cases hx : copyMembers env n p (base + 1) ((i, base) :: memo) r with
        | error e => rw [hx] at h; cases h
        | ok y =>
          rw [hx] at h
          cases h
          have ih := copyMembers_bounds (L := L) hx (by omega) (fun i' j' hl' => by
            rw [List.lookup_cons] at hl'
            by_cases hii : i' = i
            · subst hii
              simp only [beq_self_eq_true, Option.some.injEq] at hl'
              subst hl'
              exact ⟨hb, by omega⟩
            · rw [show (i' == i) = false by simpa using hii] at hl'
              have := hm i' j' hl'
              exact ⟨this.1, by omega⟩)
          intro e he
          simp only [List.length_cons]
          rcases List.mem_cons.1 he with rfl | he
          · exact ⟨hb, by dsimp only; omega⟩
          · have := ih e he; exact ⟨this.1, by omega⟩

/-- Naming fields that have names. -/
theorem prevalidate_named : ∀ {l : List (Str × Nat)} {q : Stock}, (∀ e ∈ l, HasName (q.fieldAt e.2)) → q.prevalidate l = q
  | [], _, _ => rfl
  | e :: l, q, h => by
    have hr : q.rename e.1 e.2 = q := by
      unfold Stock.rename
      cases hf : q.fields[e.2]? with
      | none => rfl
      | some f =>
        have hfa : q.fieldAt e.2 = f := by unfold fieldAt; rw [hf]; rfl
        have := h e (List.mem_cons_self ..)
        rw [hfa] at this
        dsimp only
        rw [nameMember_named this]
        obtain ⟨hlt, hf⟩ := List.getElem?_eq_some_iff.1 hf
        rw [← hf, List.set_getElem_self]
    show (q.rename e.1 e.2).prevalidate l = q
    rw [hr]
    exact prevalidate_named fun x hx => h x (List.mem_cons_of_mem _ hx)

/-- Naming new fields changes no old ones. -/
theorem prevalidate_high {L : Nat} : ∀ {l : List (Str × Nat)} {q : Stock}, (∀ e ∈ l, L ≤ e.2) →
    (q.prevalidate l).fields.length = q.fields.length ∧ ∀ i, i < L → (q.prevalidate l).fieldAt i = q.fieldAt i
  | [], _, _ => ⟨rfl, fun _ _ => rfl⟩
  | e :: l, q, h => by
    have ih := prevalidate_high (q := q.rename e.1 e.2) fun x hx => h x (List.mem_cons_of_mem _ hx)
    have hr : (q.rename e.1 e.2).fields.length = q.fields.length ∧ ∀ i, i < L → (q.rename e.1 e.2).fieldAt i = q.fieldAt i := by
      unfold Stock.rename
      cases hf : q.fields[e.2]? with
      | none => exact ⟨rfl, fun _ _ => rfl⟩
      | some f =>
        refine ⟨by simp, fun i hi => ?_⟩
        have := h e (List.mem_cons_self ..)
        dsimp only
        rw [fieldAt_set (List.getElem?_eq_some_iff.1 hf).1 rfl, if_neg (by omega)]
    exact ⟨ih.1.trans hr.1, fun i hi => (ih.2 i hi).trans (hr.2 i hi)⟩

/-- What a copy of a structure looks like from outside. -/
structure Copied (p : Stock) (d' : Nat) (q : Stock) : Prop where
  new : d' = p.dicts.length
  length : p.fields.length ≤ q.fields.length
  field : ∀ i, i < p.fields.length → q.fieldAt i = p.fieldAt i
  dicts : ∃ es, q.dicts = p.dicts ++ [es] ∧ ∀ e ∈ es, p.fields.length ≤ e.2 ∧ e.2 < q.fields.length
  outers : q.outers = p.outers

theorem copyStructure_copied {env : Env} {n : Nat} {c : Common} {p q : Stock} {d d' : Nat} (h : copyStructure env n c p d = .ok (d', q)) :
    Copied p d' q := by
  cases n with
  | zero => cases h
  | succ n =>
    unfold copyStructure at h
    dsimp only at h
    cases hx : copyMembers env n p p.fields.length [] (p.entries d) with
    | error e => rw [hx] at h; cases h
    | ok x =>
      rw [hx] at h
      have h : (if c.errors.isEmpty = true then
        (pure (p.dicts.length, ({ p with fields := p.fields ++ x.1, dicts := p.dicts ++ [x.2] } : Stock).prevalidate x.2) : Except PyErr _)
        else .error .attributeError) = .ok (d', q) := h
      split at h
      · cases h
        have hb := copyMembers_bounds hx (Nat.le_refl _) (fun i j hl => by cases hl)
        have hp := prevalidate_high (q := ({ p with fields := p.fields ++ x.1, dicts := p.dicts ++ [x.2] } : Stock)) (fun e he => (hb e he).1)
        have hd := prevalidate_dicts (l := x.2) (q := ({ p with fields := p.fields ++ x.1, dicts := p.dicts ++ [x.2] } : Stock))
        refine ⟨rfl, by rw [hp.1]; simp, fun i hi => (hp.2 i hi).trans ?_, ⟨x.2, hd.1, fun e he => ⟨(hb e he).1, ?_⟩⟩, hd.2⟩
        · unfold fieldAt; dsimp only; rw [List.getElem?_append_left hi]
        · rw [hp.1]; simpa using (hb e he).2
      · cases h

theorem copyStructure_value (env : Env) (n : Nat) (c : Common) (s : Bool) (ko : List Str) {p : Stock} {d : Nat}
    (hn : ∀ k i, (k, i) ∈ p.dicts[d]?.getD [] → HasName (p.fieldAt i)) :
    clone env n (.structure c (p.members d) s ko) = (copyStructure env n c p d).map fun x => .structure c (x.2.members x.1) s ko := by
  cases n with
  | zero => rfl
  | succ n =>
    have hs := copyMembers_spec (env := env) (n := n) (p := p) (p.entries d) p.fields [] (fun e he => hn e.1 e.2 he) (fun i j h => by cases h)
    rw [clone, cloneStep, show cloneDefn env (clone env n) (p.members d) = _ from hs]
    unfold copyStructure
    dsimp only
    cases hx : copyMembers env n p p.fields.length [] (p.entries d) with
    | error e => rfl
    | ok x =>
      rw [hx] at hs
      have hb := copyMembers_bounds hx (Nat.le_refl _) (fun i j hl => by cases hl)
      have hname : ∀ e ∈ x.2, HasName (({ p with fields := p.fields ++ x.1, dicts := p.dicts ++ [x.2] } : Stock).fieldAt e.2) := by
        intro e he
        have : (e.1, ({ p with fields := p.fields ++ x.1, dicts := p.dicts ++ [x.2] } : Stock).fieldAt e.2) ∈
            x.2.map fun e => (e.1, ((p.fields ++ x.1)[e.2]?).getD (.undef 0)) := List.mem_map_of_mem (f := fun e => (e.1, ((p.fields ++ x.1)[e.2]?).getD (.undef 0))) he
        exact cloneDefn_names hs (fun e he => by
          obtain ⟨y, hy, rfl⟩ := List.mem_map.1 he
          exact hn y.1 y.2 hy) _ this
      show initErrors false c _ = Except.map _ (if c.errors.isEmpty = true then
        (pure (p.dicts.length, ({ p with fields := p.fields ++ x.1, dicts := p.dicts ++ [x.2] } : Stock).prevalidate x.2) : Except PyErr _)
        else .error .attributeError)
      unfold initErrors
      cases hc : c.errors.isEmpty with
      | false => rfl
      | true =>
        rw [if_pos rfl, prevalidate_named hname, if_neg (by simp)]
        show Except.ok _ = Except.ok _
        congr 2
        unfold members
        dsimp only
        rw [List.getElem?_append_right (Nat.le_refl _), Nat.sub_self]
        rfl

theorem rename_same {f : Field} {name : Str} (h : f.name = some name) : Scheme.rename name f = f := by
  refine setCommon_id fun c hc => ?_
  have : c.name = some name := by unfold Field.name at h; rw [hc] at h; exact h
  rw [← this]

/-- Calling a field by a name. -/
theorem call_spec {p : Stock} {i : Nat} {f : Field} (hf : p.fields[i]? = some f) (name : Str) :
    (p.call i f name).fields.length = p.fields.length ∧ (p.call i f name).dicts = p.dicts ∧ (p.call i f name).outers = p.outers ∧
    ∀ j, (p.call i f name).fieldAt j = if j = i then Scheme.rename name f else p.fieldAt j := by
  have hlt := (List.getElem?_eq_some_iff.1 hf).1
  unfold call
  by_cases hn : f.name = some name
  · rw [if_pos hn]
    refine ⟨rfl, rfl, rfl, fun j => ?_⟩
    by_cases hj : j = i
    · subst hj; rw [if_pos rfl, rename_same hn]; unfold fieldAt; rw [hf]; rfl
    · rw [if_neg hj]
  · rw [if_neg hn]
    exact ⟨by simp, rfl, rfl, fun j => fieldAt_set hlt rfl⟩

theorem call_members {p : Stock} {i d : Nat} {f : Field} (hf : p.fields[i]? = some f) (name : Str)
    (hi : ∀ e ∈ p.entries d, e.2 ≠ i) : (p.call i f name).members d = p.members d := by
  obtain ⟨-, h2, -, h4⟩ := call_spec hf name
  unfold members
  rw [h2]
  exact List.map_congr_left fun e he => by rw [h4, if_neg (hi e he)]

theorem call_givens {p : Stock} {i : Nat} {f : Field} (hf : p.fields[i]? = some f) (name : Str) {l : List (Str × Option Nat)}
    (hi : i ∉ l.filterMap (·.2)) : (p.call i f name).givens l = p.givens l := by
  refine List.map_congr_left fun e he => ?_
  cases ha : e.2 with
  | none => rfl
  | some j =>
    have hj : j ≠ i := fun e' => hi (by rw [← e']; exact List.mem_filterMap.2 ⟨e, he, ha⟩)
    unfold given
    dsimp only
    rw [(call_spec hf name).2.2.2, if_neg hj]

theorem not_later {k : Str} {i : Nat} {r : List (Str × Option Nat)} (h : (((k, some i) :: r).filterMap (·.2)).Nodup) :
    i ∉ r.filterMap (·.2) ∧ (r.filterMap (·.2)).Nodup := by
  rw [List.filterMap_cons] at h
  exact List.nodup_cons.1 h

/-- The outcome of a loop that writes to the dict at `d`. -/
def outcome (d : Nat) (x : Except PyErr Unit × Stock) : Except PyErr (List (Str × Field)) :=
  match raised x.1 with
  | none => .ok (x.2.members d)
  | some e => .error e

theorem extendEach_value {d : Nat} : ∀ {l : List (Str × Option Nat)} {p : Stock}, d < p.dicts.length → (l.filterMap (·.2)).Nodup →
    (∀ e ∈ p.entries d, e.2 ∉ l.filterMap (·.2)) → outcome d (extendEach d l p) = extendLoop (p.members d) (p.givens l)
  | [], _, _, _, _ => rfl
  | (name, a) :: r, p, hd, hnd, hl => by
    unfold extendEach
    show _ = extendLoop (p.members d) ((name, p.given a) :: p.givens r)
    cases ha : p.fieldArg a with
    | none => rw [fieldArg_none ha]; rfl
    | some x =>
      obtain ⟨i, f⟩ := x
      obtain ⟨rfl, hlt, hf, hfa, hc, hg⟩ := fieldArg_some ha
      rw [hg]
      obtain ⟨h1, h2⟩ := not_later hnd
      have hi : ∀ e ∈ p.entries d, e.2 ≠ i := fun e he hei => hl e he (by rw [hei, List.filterMap_cons]; exact List.mem_cons_self ..)
      obtain ⟨-, hcd, -, hcf⟩ := call_spec hf name
      have hd' : d < (p.call i f name).dicts.length := by rw [hcd]; exact hd
      have ih := extendEach_value (d := d) (l := r) (p := (p.call i f name).put d name i) (by unfold Stock.put; simpa using hd') h2 (by
        intro e he
        rw [put_entries hd'] at he
        rcases mem_keySet_or he with rfl | he
        · exact h1
        · have he : e ∈ p.entries d := by unfold entries at he ⊢; rw [hcd] at he; exact he
          intro hin
          exact hl e he (by rw [List.filterMap_cons]; exact List.mem_cons_of_mem _ hin))
      dsimp only
      rw [ih, put_members hd', call_members hf name hi, hcf, if_pos rfl,
        show ((p.call i f name).put d name i).givens r = (p.call i f name).givens r from rfl, call_givens hf name h1]
      rfl

theorem replaceEach_value {d : Nat} : ∀ {l : List (Str × Option Nat)} {p : Stock}, d < p.dicts.length → (l.filterMap (·.2)).Nodup →
    (∀ e ∈ p.entries d, e.2 ∉ l.filterMap (·.2)) → outcome d (replaceEach d l p) = replaceLoop (p.members d) (p.givens l)
  | [], _, _, _, _ => rfl
  | (name, a) :: r, p, hd, hnd, hl => by
    unfold replaceEach
    show _ = replaceLoop (p.members d) ((name, p.given a) :: p.givens r)
    cases ha : p.fieldArg a with
    | none => rw [fieldArg_none ha]; rfl
    | some x =>
      obtain ⟨i, f⟩ := x
      obtain ⟨rfl, hlt, hf, hfa, hc, hg⟩ := fieldArg_some ha
      rw [hg]
      obtain ⟨h1, h2⟩ := not_later hnd
      have hi : ∀ e ∈ p.entries d, e.2 ≠ i := fun e he hei => hl e he (by rw [hei, List.filterMap_cons]; exact List.mem_cons_self ..)
      obtain ⟨-, hcd, -, hcf⟩ := call_spec hf name
      have hd' : d < (p.call i f name).dicts.length := by rw [hcd]; exact hd
      have hent : (p.call i f name).entries d = p.entries d := by unfold entries; rw [hcd]
      have hlater : ∀ e ∈ p.entries d, e.2 ∉ r.filterMap (·.2) := fun e he hin =>
        hl e he (by rw [List.filterMap_cons]; exact List.mem_cons_of_mem _ hin)
      dsimp only [replaceLoop]
      rw [members_lookup]
      by_cases hin : ((p.members d).lookup name).isSome = true
      · rw [if_pos hin, if_pos hin]
        have ih := replaceEach_value (d := d) (l := r) (p := (p.call i f name).put d name i) (by unfold Stock.put; simpa using hd') h2 (by
          intro e he
          rw [put_entries hd', hent] at he
          rcases mem_keySet_or he with rfl | he
          · exact h1
          · exact hlater e he)
        rw [ih, put_members hd', call_members hf name hi, hcf, if_pos rfl,
          show ((p.call i f name).put d name i).givens r = (p.call i f name).givens r from rfl, call_givens hf name h1]
      · rw [if_neg hin, if_neg hin]
        have ih := replaceEach_value (d := d) (l := r) (p := p.call i f name) hd' h2 (by rw [hent]; exact hlater)
        rw [ih, call_members hf name hi, call_givens hf name h1]

/-- What the loops do to objects that were there before. -/
structure Writes (p : Stock) (l : List (Str × Option Nat)) (d : Nat) (q : Stock) : Prop extends Renames p l q where
  entry : ∀ k i, (k, i) ∈ q.entries d → (p.fields.length ≤ i ∧ i < q.fields.length) ∨ ∃ k', (k', some i) ∈ l
  dicts : q.dicts.length = d + 1

theorem Writes.call {p q : Stock} {l : List (Str × Option Nat)} {d : Nat} (h : Writes p l d q) {i : Nat} {f : Field} (hf : q.fields[i]? = some f)
    {name : Str} (hi : (name, some i) ∈ l) : Writes p l d (q.call i f name) := by
  obtain ⟨h1, h2, h3, h4⟩ := call_spec hf name
  refine ⟨⟨by rw [h1]; exact h.fields, fun j hj => ?_, fun d' hd' => by rw [h2]; exact h.dict d' hd', h3.trans h.outers⟩,
    fun k j hj => by rw [h1]; unfold entries at hj; rw [h2] at hj; exact h.entry k j hj, by rw [h2]; exact h.dicts⟩
  rw [h4]
  by_cases hji : j = i
  · subst hji
    rw [if_pos rfl]
    refine .inr ⟨name, hi, ?_⟩
    have hfa : q.fieldAt j = f := by unfold fieldAt; rw [hf]; rfl
    rcases h.field j hj with hq | ⟨k, -, hq⟩ <;> rw [hfa] at hq <;> subst hq
    · rfl
    · generalize p.fieldAt j = g
      cases g <;> rfl
  · rw [if_neg hji]; exact h.field j hj

theorem Writes.put {p q : Stock} {l : List (Str × Option Nat)} {d : Nat} (h : Writes p l d q) (hd : p.dicts.length ≤ d) {i : Nat} {name : Str}
    (hi : (name, some i) ∈ l) : Writes p l d (q.put d name i) := by
  refine ⟨⟨h.fields, h.field, fun d' hd' => ?_, h.outers⟩, fun k j hj => ?_, by unfold Stock.put; simpa using h.dicts⟩
  · exact (List.getElem?_set_ne (by omega)).trans (h.dict d' hd')
  · rw [put_entries (by rw [h.dicts]; omega)] at hj
    rcases mem_keySet_or hj with hj | hj
    · cases hj; exact .inr ⟨name, hi⟩
    · exact h.entry k j hj

theorem extendEach_writes {p : Stock} {all : List (Str × Option Nat)} {d : Nat} (hd : p.dicts.length ≤ d) : ∀ {l : List (Str × Option Nat)} {q : Stock},
    (∀ e ∈ l, e ∈ all) → Writes p all d q → Writes p all d (extendEach d l q).2
  | [], _, _, h => h
  | (name, a) :: r, q, hl, h => by
    unfold extendEach
    cases ha : q.fieldArg a with
    | none => exact h
    | some x =>
      obtain ⟨i, f⟩ := x
      obtain ⟨rfl, hlt, hf, hfa, hc, hg⟩ := fieldArg_some ha
      have hi := hl _ (List.mem_cons_self ..)
      exact extendEach_writes hd (fun e he => hl e (List.mem_cons_of_mem _ he)) ((h.call hf hi).put hd hi)

theorem replaceEach_writes {p : Stock} {all : List (Str × Option Nat)} {d : Nat} (hd : p.dicts.length ≤ d) : ∀ {l : List (Str × Option Nat)} {q : Stock},
    (∀ e ∈ l, e ∈ all) → Writes p all d q → Writes p all d (replaceEach d l q).2
  | [], _, _, h => h
  | (name, a) :: r, q, hl, h => by
    unfold replaceEach
    cases ha : q.fieldArg a with
    | none => exact h
    | some x =>
      obtain ⟨i, f⟩ := x
      obtain ⟨rfl, hlt, hf, hfa, hc, hg⟩ := fieldArg_some ha
      have hi := hl _ (List.mem_cons_self ..)
      dsimp only
      split
      · exact replaceEach_writes hd (fun e he => hl e (List.mem_cons_of_mem _ he)) ((h.call hf hi).put hd hi)
      · exact replaceEach_writes hd (fun e he => hl e (List.mem_cons_of_mem _ he)) (h.call hf hi)

theorem Copied.writes {p q : Stock} {d : Nat} (h : Copied p d q) (l : List (Str × Option Nat)) : Writes p l d q := by
  obtain ⟨es, h1, h2⟩ := h.dicts
  refine ⟨⟨h.length, fun i hi => .inl (h.field i hi), fun d' hd' => by rw [h1, List.getElem?_append_left hd'], h.outers⟩, fun k i hi => ?_,
    by rw [h1, h.new]; simp⟩
  unfold entries at hi
  rw [h1, h.new, List.getElem?_append_right (Nat.le_refl _), Nat.sub_self] at hi
  exact .inl (h2 _ hi)

theorem Copied.givens {p q : Stock} {d : Nat} (h : Copied p d q) {l : List (Str × Option Nat)} (hl : Exist p l) : q.givens l = p.givens l :=
  List.map_congr_left fun e he => by
    cases ha : e.2 with
    | none => rfl
    | some i => unfold given; dsimp only; rw [h.field i (hl e.1 i (by rw [← ha]; exact he))]

theorem Copied.apart {p q : Stock} {d : Nat} (h : Copied p d q) {l : List (Str × Option Nat)} (hl : Exist p l) :
    d < q.dicts.length ∧ ∀ e ∈ q.entries d, e.2 ∉ l.filterMap (·.2) := by
  obtain ⟨es, h1, h2⟩ := h.dicts
  refine ⟨by rw [h1, h.new]; simp, fun e he hin => ?_⟩
  unfold entries at he
  rw [h1, h.new, List.getElem?_append_right (Nat.le_refl _), Nat.sub_self] at he
  obtain ⟨x, hx, hx2⟩ := List.mem_filterMap.1 hin
  have := hl x.1 e.2 (by rw [← hx2]; exact hx)
  have := (h2 e he).1
  omega

end Stock

/-! ### extend and replace -/

/-- C95. `extend` has the outcome it has on values if the members have names and no field is given twice. -/
theorem C95_extend (env : Env) (n : Nat) (c : Common) (s : Bool) (ko : List Str) {p : Stock} {d : Nat}
    (hn : ∀ k i, (k, i) ∈ p.dicts[d]?.getD [] → HasName (p.fieldAt i)) {extra : List (Str × Option Nat)} (hex : Exist p extra)
    (hnd : (extra.filterMap (·.2)).Nodup) :
    extendStructure env n c (p.members d) s ko (p.givens extra) =
      (extendAt env n c p d extra).1.map fun d' => .structure c ((extendAt env n c p d extra).2.members d') s ko := by
  unfold extendStructure
  rw [copyStructure_value env n c s ko hn]
  unfold extendAt
  cases hc : copyStructure env n c p d with
  | error e => rfl
  | ok x =>
    obtain ⟨d', q⟩ := x
    have hcp := copyStructure_copied hc
    have hv := extendEach_value (hcp.apart hex).1 hnd (hcp.apart hex).2
    rw [hcp.givens hex] at hv
    show Except.map _ (extendLoop (q.members d') (p.givens extra)) = _
    rw [← hv]
    unfold outcome
    dsimp only
    cases (extendEach d' extra q).1 <;> rfl

/-- C95. `replace` has the outcome it has on values under the same conditions. -/
theorem C95_replace (env : Env) (n : Nat) (c : Common) (s : Bool) (ko : List Str) {p : Stock} {d : Nat}
    (hn : ∀ k i, (k, i) ∈ p.dicts[d]?.getD [] → HasName (p.fieldAt i)) {repl : List (Str × Option Nat)} (hex : Exist p repl)
    (hnd : (repl.filterMap (·.2)).Nodup) :
    replaceStructure env n c (p.members d) s ko (p.givens repl) =
      (replaceAt env n c p d repl).1.map fun x => x.map fun d' => .structure c ((replaceAt env n c p d repl).2.members d') s ko := by
  unfold replaceStructure replaceAt
  have hany : ((p.givens repl).any fun e => ((p.members d).lookup e.1).isSome) = repl.any fun e => ((p.entries d).lookup e.1).isSome := by
    unfold givens
    rw [List.any_map]
    congr 1
    funext e
    exact (members_lookup p d e.1).symm
  rw [hany]
  by_cases ha : (repl.any fun e => ((p.entries d).lookup e.1).isSome) = true
  · rw [if_pos ha, if_pos ha, copyStructure_value env n c s ko hn]
    cases hc : copyStructure env n c p d with
    | error e => rfl
    | ok x =>
      obtain ⟨d', q⟩ := x
      have hcp := copyStructure_copied hc
      have hv := replaceEach_value (hcp.apart hex).1 hnd (hcp.apart hex).2
      rw [hcp.givens hex] at hv
      show Except.map _ (replaceLoop (q.members d') (p.givens repl)) = _
      rw [← hv]
      unfold outcome
      dsimp only
      cases (replaceEach d' repl q).1 <;> rfl
  · rw [if_neg ha, if_neg ha]; rfl

/-- C95. Whatever is shared and whether or not it succeeds, `extend` changes no dict and no field object but for the names of
the fields given; the new structure has a dict of its own, of copies and the fields given. -/
theorem C95_extend_touches (env : Env) (n : Nat) (c : Common) (p : Stock) (d : Nat) (extra : List (Str × Option Nat)) :
    Renames p extra (extendAt env n c p d extra).2 ∧ ∀ d', (extendAt env n c p d extra).1 = .ok d' →
      d' = p.dicts.length ∧ ∀ k i, (k, i) ∈ (extendAt env n c p d extra).2.dicts[d']?.getD [] →
        (p.fields.length ≤ i ∧ i < (extendAt env n c p d extra).2.fields.length) ∨ ∃ k', (k', some i) ∈ extra := by
  unfold extendAt
  cases hc : copyStructure env n c p d with
  | error e => exact ⟨⟨Nat.le_refl _, fun _ _ => .inl rfl, fun _ _ => rfl, rfl⟩, fun d' h => by cases h⟩
  | ok x =>
    obtain ⟨d', q⟩ := x
    have hcp := copyStructure_copied hc
    have hw := extendEach_writes (Nat.le_of_eq hcp.new.symm) (fun _ h => h) (hcp.writes extra)
    refine ⟨hw.toRenames, fun d'' h => ?_⟩
    dsimp only at h
    cases hr : (extendEach d' extra q).1 with
    | error e => rw [hr] at h; cases h
    | ok u =>
      rw [hr] at h
      cases h
      exact ⟨hcp.new, hw.entry⟩

/-- C95. The same for `replace`. -/
theorem C95_replace_touches (env : Env) (n : Nat) (c : Common) (p : Stock) (d : Nat) (repl : List (Str × Option Nat)) :
    Renames p repl (replaceAt env n c p d repl).2 ∧ ∀ d', (replaceAt env n c p d repl).1 = .ok (some d') →
      d' = p.dicts.length ∧ ∀ k i, (k, i) ∈ (replaceAt env n c p d repl).2.dicts[d']?.getD [] →
        (p.fields.length ≤ i ∧ i < (replaceAt env n c p d repl).2.fields.length) ∨ ∃ k', (k', some i) ∈ repl := by
  unfold replaceAt
  split
  · cases hc : copyStructure env n c p d with
    | error e => exact ⟨⟨Nat.le_refl _, fun _ _ => .inl rfl, fun _ _ => rfl, rfl⟩, fun d' h => by cases h⟩
    | ok x =>
      obtain ⟨d', q⟩ := x
      have hcp := copyStructure_copied hc
      have hw := replaceEach_writes (Nat.le_of_eq hcp.new.symm) (fun _ h => h) (hcp.writes repl)
      refine ⟨hw.toRenames, fun d'' h => ?_⟩
      dsimp only at h
      cases hr : (replaceEach d' repl q).1 with
      | error e => rw [hr] at h; cases h
      | ok u =>
        rw [hr] at h
        cases h
        exact ⟨hcp.new, hw.entry⟩
  · exact ⟨⟨Nat.le_refl _, fun _ _ => .inl rfl, fun _ _ => rfl, rfl⟩, fun d' h => by cases h⟩

/-- C95. So another structure (the one extended included) is as before if none of its fields is given under a name it does not
have. -/
theorem C95_kept {p q : Stock} {d : Nat} {l : List (Str × Option Nat)} (h : Renames p l q) (hm : HasMembers p d)
    (hl : ∀ k i, (k, some i) ∈ l → ∀ k', (k', i) ∈ p.dicts[d]?.getD [] → (p.fieldAt i).name = some k) : q.members d = p.members d := by
  unfold members
  rw [h.dict d hm.1]
  refine List.map_congr_left fun e he => ?_
  rcases h.field e.2 (hm.2 e.1 e.2 he) with h1 | ⟨k, hk, h1⟩
  · rw [h1]
  · rw [h1]
    have := rename_same (hl k e.2 hk e.1 he)
    show (e.1, Scheme.rename k (p.fieldAt e.2)) = _
    rw [this]

namespace Stock

theorem call_unset {p : Stock} {i j d : Nat} {f : Field} {name : Str} (hf : p.fields[i]? = some f) (hj : j ≠ i) :
    (p.call i f name).fieldAt j = p.fieldAt j ∧ ((p.call i f name).put d name i).fieldAt j = p.fieldAt j := by
  have := (call_spec hf name).2.2.2 j
  rw [if_neg hj] at this
  exact ⟨this, this⟩

theorem extendEach_field {d j : Nat} : ∀ {l : List (Str × Option Nat)} {p : Stock}, j ∉ l.filterMap (·.2) →
    (extendEach d l p).2.fieldAt j = p.fieldAt j
  | [], _, _ => rfl
  | (name, a) :: r, p, hj => by
    unfold extendEach
    cases ha : p.fieldArg a with
    | none => rfl
    | some x =>
      obtain ⟨i, f⟩ := x
      obtain ⟨rfl, hlt, hf, hfa, hc, hg⟩ := fieldArg_some ha
      rw [List.filterMap_cons] at hj
      have h1 : j ≠ i := fun h => hj (by rw [h]; exact List.mem_cons_self ..)
      exact (extendEach_field fun h => hj (List.mem_cons_of_mem _ h)).trans (call_unset hf h1).2

theorem replaceEach_field {d j : Nat} : ∀ {l : List (Str × Option Nat)} {p : Stock}, j ∉ l.filterMap (·.2) →
    (replaceEach d l p).2.fieldAt j = p.fieldAt j
  | [], _, _ => rfl
  | (name, a) :: r, p, hj => by
    unfold replaceEach
    cases ha : p.fieldArg a with
    | none => rfl
    | some x =>
      obtain ⟨i, f⟩ := x
      obtain ⟨rfl, hlt, hf, hfa, hc, hg⟩ := fieldArg_some ha
      rw [List.filterMap_cons] at hj
      have h1 : j ≠ i := fun h => hj (by rw [h]; exact List.mem_cons_self ..)
      refine (replaceEach_field fun h => hj (List.mem_cons_of_mem _ h)).trans ?_
      split
      · exact (call_unset hf h1).2
      · exact (call_unset (d := d) hf h1).1

theorem extendEach_called {d i : Nat} {k : Str} : ∀ {l : List (Str × Option Nat)} {p : Stock}, (l.filterMap (·.2)).Nodup → (k, some i) ∈ l →
    raised (extendEach d l p).1 = none → (extendEach d l p).2.fieldAt i = withName k (p.fieldAt i)
  | (name, a) :: r, p, hnd, hm, hr => by
    unfold extendEach at hr ⊢
    cases ha : p.fieldArg a with
    | none => rw [ha] at hr; cases hr
    | some x =>
      obtain ⟨j, f⟩ := x
      rw [ha] at hr
      obtain ⟨rfl, hlt, hf, hfa, hc, hg⟩ := fieldArg_some ha
      obtain ⟨h1, h2⟩ := not_later hnd
      rcases List.mem_cons.1 hm with hm | hm
      · cases hm
        refine (extendEach_field h1).trans (((call_spec hf k).2.2.2 i).trans ?_)
        rw [if_pos rfl, hfa]; rfl
      · have hi : i ≠ j := fun h => h1 (by rw [← h]; exact List.mem_filterMap.2 ⟨_, hm, rfl⟩)
        exact (extendEach_called h2 hm hr).trans (by rw [(call_unset hf hi).2])

theorem replaceEach_called {d i : Nat} {k : Str} : ∀ {l : List (Str × Option Nat)} {p : Stock}, (l.filterMap (·.2)).Nodup → (k, some i) ∈ l →
    raised (replaceEach d l p).1 = none → (replaceEach d l p).2.fieldAt i = withName k (p.fieldAt i)
  | (name, a) :: r, p, hnd, hm, hr => by
    unfold replaceEach at hr ⊢
    cases ha : p.fieldArg a with
    | none => rw [ha] at hr; cases hr
    | some x =>
      obtain ⟨j, f⟩ := x
      rw [ha] at hr
      obtain ⟨rfl, hlt, hf, hfa, hc, hg⟩ := fieldArg_some ha
      obtain ⟨h1, h2⟩ := not_later hnd
      rcases List.mem_cons.1 hm with hm | hm
      · cases hm
        have he := (call_spec hf k).2.2.2 i
        rw [if_pos rfl] at he
        refine (replaceEach_field h1).trans ?_
        rw [hfa]
        split <;> exact he
      · have hi : i ≠ j := fun h => h1 (by rw [← h]; exact List.mem_filterMap.2 ⟨_, hm, rfl⟩)
        refine (replaceEach_called h2 hm hr).trans ?_
        congr 1
        split
        · exact (call_unset hf hi).2
        · exact (call_unset (d := d) hf hi).1

end Stock

/-- C95. After `extend` every field given is called by its key, wherever else it is used. -/
theorem C95_extend_called (env : Env) (n : Nat) (c : Common) {p : Stock} {d d' : Nat} {extra : List (Str × Option Nat)} (hex : Exist p extra)
    (hnd : (extra.filterMap (·.2)).Nodup) (h : (extendAt env n c p d extra).1 = .ok d') {k : Str} {i : Nat} (hm : (k, some i) ∈ extra) :
    (extendAt env n c p d extra).2.fieldAt i = withName k (p.fieldAt i) := by
  unfold extendAt at h ⊢
  cases hc : copyStructure env n c p d with
  | error e => rw [hc] at h; cases h
  | ok x =>
    obtain ⟨d'', q⟩ := x
    rw [hc] at h
    dsimp only at h ⊢
    have hr : raised (extendEach d'' extra q).1 = none := by
      cases hx : (extendEach d'' extra q).1 with
      | error e => rw [hx] at h; cases h
      | ok u => rfl
    rw [extendEach_called hnd hm hr, (copyStructure_copied hc).field i (hex k i hm)]

/-- C95. The same goes for `replace` if it replaces anything: also the fields under keys it ignores are renamed. -/
theorem C95_replace_called (env : Env) (n : Nat) (c : Common) {p : Stock} {d d' : Nat} {repl : List (Str × Option Nat)} (hex : Exist p repl)
    (hnd : (repl.filterMap (·.2)).Nodup) (h : (replaceAt env n c p d repl).1 = .ok (some d')) {k : Str} {i : Nat} (hm : (k, some i) ∈ repl) :
    (replaceAt env n c p d repl).2.fieldAt i = withName k (p.fieldAt i) := by
  unfold replaceAt at h ⊢
  by_cases ha : (repl.any fun e => ((p.entries d).lookup e.1).isSome) = true
  · rw [if_pos ha] at h ⊢
    cases hc : copyStructure env n c p d with
    | error e => rw [hc] at h; cases h
    | ok x =>
      obtain ⟨d'', q⟩ := x
      rw [hc] at h
      dsimp only at h ⊢
      have hr : raised (replaceEach d'' repl q).1 = none := by
        cases hx : (replaceEach d'' repl q).1 with
        | error e => rw [hx] at h; cases h
        | ok u => rfl
      rw [replaceEach_called hnd hm hr, (copyStructure_copied hc).field i (hex k i hm)]
  · rw [if_neg ha] at h; cases h

/-! ### Examples -/

namespace Ex

def called (name : Str) (f : Field) : Field := Stock.withName name f

/-- Two structures, `{'x': Text()}` and `{'y': Integer()}`, a Boolean named `z`, and an Undefined. -/
def twoStock : Stock :=
  ⟨[called c!"x" textObj, called c!"y" intObj, called c!"z" boolObj, .undef 0], [[(c!"x", 0)], [(c!"y", 1)]], []⟩

end Ex

/-- C95. Extending one structure with the field of another under a new name renames the field there: the other structure,
which is not involved, has another member than before, and its messages speak of `w`. -/
theorem C95_extend_elsewhere :
    (extendAt Ex.env 3 {} Ex.twoStock 0 [(c!"w", some 1)]).1.toOption = some 2 ∧
    (extendAt Ex.env 3 {} Ex.twoStock 0 [(c!"w", some 1)]).2.members 2 = [(c!"x", Ex.called c!"x" Ex.textObj), (c!"w", Ex.called c!"w" Ex.intObj)] ∧
    Ex.twoStock.members 1 = [(c!"y", Ex.called c!"y" Ex.intObj)] ∧
    (extendAt Ex.env 3 {} Ex.twoStock 0 [(c!"w", some 1)]).2.members 1 = [(c!"y", Ex.called c!"w" Ex.intObj)] ∧
    displayName (Ex.called c!"w" Ex.intObj) = c!"w" := ⟨rfl, rfl, rfl, rfl, rfl⟩

/-- C95. `replace` renames a field it ignores. -/
theorem C95_replace_ignored :
    (replaceAt Ex.env 3 {} Ex.twoStock 0 [(c!"x", some 2), (c!"w", some 1)]).2.members 2 = [(c!"x", Ex.called c!"x" Ex.boolObj)] ∧
    (replaceAt Ex.env 3 {} Ex.twoStock 0 [(c!"x", some 2), (c!"w", some 1)]).2.members 1 = [(c!"y", Ex.called c!"w" Ex.intObj)] := ⟨rfl, rfl⟩

/-- C95. An `extend` that fails has renamed the fields before the culprit. -/
theorem C95_extend_failed :
    (match (extendAt Ex.env 3 {} Ex.twoStock 0 [(c!"w", some 1), (c!"v", some 3)]).1 with | .ok _ => none | .error e => some e) = some PyErr.typeError ∧
    (extendAt Ex.env 3 {} Ex.twoStock 0 [(c!"w", some 1), (c!"v", some 3)]).2.members 1 = [(c!"y", Ex.called c!"w" Ex.intObj)] := ⟨rfl, rfl⟩

/-- C95. A field given twice is one object with the last name; on values the structure would have two fields. -/
theorem C95_extend_twice :
    (extendAt Ex.env 3 {} Ex.twoStock 0 [(c!"v", some 1), (c!"w", some 1)]).2.members 2 =
      [(c!"x", Ex.called c!"x" Ex.textObj), (c!"v", Ex.called c!"w" Ex.intObj), (c!"w", Ex.called c!"w" Ex.intObj)] ∧
    extendLoop (Ex.twoStock.members 0) (Ex.twoStock.givens [(c!"v", some 1), (c!"w", some 1)]) =
      .ok [(c!"x", Ex.called c!"x" Ex.textObj), (c!"v", Ex.called c!"v" Ex.intObj), (c!"w", Ex.called c!"w" Ex.intObj)] := ⟨rfl, rfl⟩

theorem Ex.twoStock_ok : HasMembers Ex.twoStock 0 ∧ HasMembers Ex.twoStock 1 ∧
    (∀ k i, (k, i) ∈ Ex.twoStock.dicts[0]?.getD [] → HasName (Ex.twoStock.fieldAt i)) := by
  refine ⟨⟨by decide, fun k i h => ?_⟩, ⟨by decide, fun k i h => ?_⟩, fun k i h => ?_⟩
  · obtain ⟨rfl, rfl⟩ : k = c!"x" ∧ i = 0 := by simpa [Ex.twoStock] using h
    decide
  · obtain ⟨rfl, rfl⟩ : k = c!"y" ∧ i = 1 := by simpa [Ex.twoStock] using h
    decide
  · obtain ⟨rfl, rfl⟩ : k = c!"x" ∧ i = 0 := by simpa [Ex.twoStock] using h
    exact ⟨_, _, rfl⟩

/-- The hypotheses of the claims on `extend` and `replace` are met. -/
example :
    extendStructure Ex.env 3 {} (Ex.twoStock.members 0) true [] (Ex.twoStock.givens [(c!"w", some 1)]) =
      .ok (.structure {} [(c!"x", Ex.called c!"x" Ex.textObj), (c!"w", Ex.called c!"w" Ex.intObj)] true []) ∧
    replaceStructure Ex.env 3 {} (Ex.twoStock.members 0) true [] (Ex.twoStock.givens [(c!"x", some 2), (c!"w", some 1)]) =
      .ok (some (.structure {} [(c!"x", Ex.called c!"x" Ex.boolObj)] true [])) := by
  refine ⟨(C95_extend Ex.env 3 {} true [] Ex.twoStock_ok.2.2 ?_ (by decide)).trans rfl,
    (C95_replace Ex.env 3 {} true [] Ex.twoStock_ok.2.2 ?_ (by decide)).trans rfl⟩ <;> intro k i h <;> simp at h
  · obtain ⟨-, rfl⟩ := h; decide
  · rcases h with ⟨-, rfl⟩ | ⟨-, rfl⟩ <;> decide

/-- A structure extended with another's field under its own name: both stay as they were. -/
example : (extendAt Ex.env 3 {} Ex.twoStock 0 [(c!"y", some 1)]).2.members 1 = Ex.twoStock.members 1 ∧
    (extendAt Ex.env 3 {} Ex.twoStock 0 [(c!"y", some 1)]).2.members 0 = Ex.twoStock.members 0 := by
  have h := (C95_extend_touches Ex.env 3 {} Ex.twoStock 0 [(c!"y", some 1)]).1
  refine ⟨C95_kept h Ex.twoStock_ok.2.1 fun k i hk k' hk' => ?_, C95_kept h Ex.twoStock_ok.1 fun k i hk k' hk' => ?_⟩ <;>
    (simp at hk; obtain ⟨rfl, rfl⟩ := hk)
  · rfl
  · simp [Ex.twoStock] at hk'

/-- Merging under another name makes a copy, and the other structure stays as it was. -/
example : (mergeAt Ex.env 3 false 0 [(c!"w", some 1)] Ex.twoStock).2.members 0 =
      [(c!"x", Ex.called c!"x" Ex.textObj), (c!"w", Ex.called c!"w" Ex.intObj)] ∧
    (mergeAt Ex.env 3 false 0 [(c!"w", some 1)] Ex.twoStock).2.members 1 = Ex.twoStock.members 1 := by
  refine ⟨rfl, ?_⟩
  have := (C95_merge Ex.env 3 false Ex.twoStock_ok.1 (extra := [(c!"w", some 1)]) (by intro k i h; simp at h; obtain ⟨-, rfl⟩ := h; decide))
  exact C95_others this.2 (by decide) Ex.twoStock_ok.2.1

end Scheme
