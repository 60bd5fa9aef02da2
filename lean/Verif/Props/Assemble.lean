import Verif.Lemmas.Assemble
import Verif.Lemmas.Describe
import Verif.Lemmas.Accept
import Verif.Props.Enumeration
import Verif.Spec.Examples

/-! C93: a structure is made of the caller's dicts. -/

namespace Scheme

open Stock

namespace Stock

theorem foldl_keySet_map {α β : Type} (g : α → β) : ∀ (new old : List (Str × α)),
    (new.foldl (fun acc e => keySet e.1 e.2 acc) old).map (fun e => (e.1, g e.2)) =
      (new.map fun e => (e.1, g e.2)).foldl (fun acc e => keySet e.1 e.2 acc) (old.map fun e => (e.1, g e.2))
  | [], _ => rfl
  | e :: new, old => by
    rw [List.foldl_cons, foldl_keySet_map g new, map_keySet]
    rfl

theorem mem_foldl_keySet {α : Type} : ∀ {new old : List (Str × α)} {e : Str × α},
    e ∈ new.foldl (fun acc e => keySet e.1 e.2 acc) old → e ∈ old ∨ e ∈ new
  | [], _, _, h => .inl h
  | x :: new, old, e, h => by
    rcases mem_foldl_keySet (new := new) h with h | h
    · rcases mem_keySet_or h with rfl | h
      · exact .inr (List.mem_cons_self ..)
      · exact .inl h
    · exact .inr (List.mem_cons_of_mem _ h)

/-- Updating all variants with the common members. -/
theorem updates {common : Nat} {new : List (Str × Nat)} : ∀ {ds : List Nat} {p : Stock}, ds.Nodup → common ∉ ds → p.dicts[common]? = some new →
    (∀ d ∈ ds, d < p.dicts.length) →
    (ds.foldl (fun p d => p.update common d) p).fields = p.fields ∧ (ds.foldl (fun p d => p.update common d) p).outers = p.outers ∧
    (ds.foldl (fun p d => p.update common d) p).dicts.length = p.dicts.length ∧
    (∀ d, d ∉ ds → (ds.foldl (fun p d => p.update common d) p).dicts[d]? = p.dicts[d]?) ∧
    (∀ d ∈ ds, (ds.foldl (fun p d => p.update common d) p).dicts[d]? =
      (p.dicts[d]?).map fun old => new.foldl (fun acc e => keySet e.1 e.2 acc) old)
  | [], p, _, _, _, _ => ⟨rfl, rfl, rfl, fun _ _ => rfl, fun _ h => by cases h⟩
  | d :: ds, p, hn, hc, hnew, hlt => by
    rw [List.nodup_cons] at hn
    have hd := hlt d (List.mem_cons_self ..)
    have hup : p.update common d = ⟨p.fields, p.dicts.set d (new.foldl (fun acc e => keySet e.1 e.2 acc) p.dicts[d]), p.outers⟩ := by
      unfold update
      rw [hnew, List.getElem?_eq_getElem hd]
    have hcd : d ≠ common := fun e => hc (e ▸ List.mem_cons_self ..)
    obtain ⟨h1, h2, h3, h4, h5⟩ := updates (common := common) (new := new) (ds := ds) (p := p.update common d) hn.2
      (fun h => hc (List.mem_cons_of_mem _ h)) (by rw [hup]; exact (List.getElem?_set_ne hcd).trans hnew)
      (fun d' h => by rw [hup]; simpa using hlt d' (List.mem_cons_of_mem _ h))
    rw [List.foldl_cons]
    refine ⟨h1.trans (by rw [hup]), h2.trans (by rw [hup]), h3.trans (by rw [hup]; simp), fun d' hd' => ?_, fun d' hd' => ?_⟩
    · rw [h4 d' fun h => hd' (List.mem_cons_of_mem _ h), hup]
      have hne : d ≠ d' := fun e => hd' (by rw [← e]; exact List.mem_cons_self ..)
      exact List.getElem?_set_ne hne
    · rcases List.mem_cons.1 hd' with rfl | hd'
      · rw [h4 d' hn.1, hup, List.getElem?_eq_getElem hd]
        exact List.getElem?_set_self hd
      · rw [h5 d' hd', hup]
        have hne : d ≠ d' := fun e => hn.1 (e ▸ hd')
        show Option.map _ ((p.dicts.set _ _)[d']?) = _
        rw [List.getElem?_set_ne hne]

/-- What the members under `*` do. -/
theorem spread_step {p : Stock} {a : Nat} {o : List (Val × Nat)} (ha : p.outers[a]? = some o) (hn : (o.map (·.2)).Nodup)
    (hlt : ∀ d ∈ o.map (·.2), d < p.dicts.length) :
    (p.spread a o).fields = p.fields ∧ (p.spread a o).outerAt a = unstarred o ∧ (p.spread a o).dicts.length = p.dicts.length ∧
    (∀ d, d ∉ o.map (·.2) → (p.spread a o).dicts[d]? = p.dicts[d]?) ∧ (∀ b, b ≠ a → (p.spread a o).outers[b]? = p.outers[b]?) ∧
    (∀ d ∈ (unstarred o).map (·.2), (p.spread a o).members d = updated (p.members d) (p.commonOf o)) ∧
    (∀ e ∈ (p.spread a o).entriesOf ((unstarred o).map (·.2)), e ∈ p.entriesOf (o.map (·.2))) := by
  have halt : a < p.outers.length := (List.getElem?_eq_some_iff.1 ha).1
  cases hf : o.find? fun e => isStar e.1 with
  | none =>
    have hs : p.spread a o = p := by unfold spread; rw [hf]
    have hu : unstarred o = o := by
      unfold unstarred
      refine List.eraseP_of_forall_not fun e he => ?_
      have := List.find?_eq_none.1 hf e he
      exact this
    have hc : p.commonOf o = [] := by unfold commonOf starred; rw [show o.find? (fun e => pyEq (.str c!"*") e.1) = none from hf]; rfl
    rw [hs, hu, hc]
    exact ⟨rfl, by unfold outerAt; rw [ha]; rfl, rfl, fun _ _ => rfl, fun _ _ => rfl, fun _ _ => rfl, fun _ h => h⟩
  | some e =>
    have hmem := List.mem_of_find?_eq_some hf
    have hc : p.commonOf o = p.members e.2 := by
      unfold commonOf starred; rw [show o.find? (fun e => pyEq (.str c!"*") e.1) = some e from hf]; rfl
    obtain ⟨l1, l2, ho, hpre⟩ := List.find?_eq_some_iff_append.1 hf |>.2
    have hu : unstarred o = l1 ++ l2 := by
      unfold unstarred
      rw [ho]
      rw [List.eraseP_append_right _ (fun x hx => by simpa [isStar] using hpre x hx)]
      have hstar : pyEq (.str c!"*") e.1 = true := (List.find?_eq_some_iff_append.1 hf).1
      simp only [List.eraseP_cons, hstar, cond_true]
    have hds : ((unstarred o).map (·.2)).Nodup ∧ e.2 ∉ (unstarred o).map (·.2) := by
      rw [hu]
      rw [ho] at hn
      simp only [List.map_append, List.map_cons] at hn ⊢
      have := List.perm_middle.nodup_iff.1 hn
      rw [List.nodup_cons] at this
      exact ⟨this.2, this.1⟩
    have hsub : ∀ d ∈ (unstarred o).map (·.2), d ∈ o.map (·.2) := by
      intro d hd
      obtain ⟨x, hx, rfl⟩ := List.mem_map.1 hd
      exact List.mem_map_of_mem (List.mem_of_mem_eraseP hx)
    have heo : e.2 ∈ o.map (·.2) := List.mem_map_of_mem hmem
    have helt := hlt _ heo
    have hspread : p.spread a o = ((unstarred o).map (·.2)).foldl (fun p d => p.update e.2 d)
        { p with outers := p.outers.set a (unstarred o) } := by
      unfold spread; rw [hf]; rfl
    obtain ⟨h1, h2, h3, h4, h5⟩ := updates (common := e.2) (new := p.dicts[e.2]) (ds := (unstarred o).map (·.2))
      (p := { p with outers := p.outers.set a (unstarred o) }) hds.1 hds.2 (List.getElem?_eq_getElem helt) (fun d hd => hlt d (hsub d hd))
    rw [← hspread] at h1 h2 h3 h4 h5
    have hcell : ∀ d ∈ (unstarred o).map (·.2), (p.spread a o).dicts[d]? =
        some (p.dicts[e.2].foldl (fun acc e => keySet e.1 e.2 acc) (p.dicts[d]?.getD [])) := by
      intro d hd
      rw [h5 d hd]
      show Option.map _ p.dicts[d]? = _
      rw [List.getElem?_eq_getElem (hlt d (hsub d hd))]
      rfl
    refine ⟨h1, ?_, h3, fun d hd => h4 d fun h => hd (hsub d h), fun b hb => ?_, fun d hd => ?_, fun x hx => ?_⟩
    · unfold outerAt
      rw [h2]
      show (p.outers.set a _)[a]?.getD [] = _
      rw [List.getElem?_set_self halt]
      rfl
    · rw [h2]
      exact List.getElem?_set_ne fun h => hb h.symm
    · unfold members
      rw [hcell d hd, hc]
      show List.map _ (List.foldl _ _ _) = _
      have hat : ∀ i, (p.spread a o).fieldAt i = p.fieldAt i := fun i => by unfold fieldAt; rw [h1]
      simp only [hat]
      rw [foldl_keySet_map]
      unfold updated members
      rw [List.getElem?_eq_getElem helt]
      rfl
    · unfold entriesOf at hx ⊢
      rw [List.mem_flatMap] at hx ⊢
      obtain ⟨d, hd, hx⟩ := hx
      rw [hcell d hd] at hx
      rcases mem_foldl_keySet hx with hx | hx
      · exact ⟨d, hsub d hd, hx⟩
      · exact ⟨e.2, heo, by rw [List.getElem?_eq_getElem helt]; exact hx⟩

theorem Tidy.of {p q : Stock} {es : List (Str × Nat)} (h : Tidy p es) (hf : q.fields = p.fields) : Tidy q es := by
  have hat : ∀ i, q.fieldAt i = p.fieldAt i := fun i => by unfold fieldAt; rw [hf]
  exact ⟨fun e he => by rw [hf]; exact h.field e he, fun e he e' he' h1 h2 => h.name e he e' he' h1 (by rwa [← hat])⟩

end Stock

/-- If no dict is used for two identities and no field without name under two names, a structure is made of the caller's
objects as it is made of their values, and with the same exceptions. -/
theorem C93_separate {env : Env} {n : Nat} {c : Common} {a : Nat} {on : On} {strict : Bool} {order : KeyOrder} {p : Stock}
    {o : List (Val × Nat)} (ha : p.outers[a]? = some o) (hn : (o.map (·.2)).Nodup) (hlt : ∀ d ∈ o.map (·.2), d < p.dicts.length)
    (ht : Tidy p (p.entriesOf (o.map (·.2)))) :
    (∀ e, newPolymorphic env n c (p.variants (unstarred o)) (p.commonOf o) on strict order .none = .error e →
      (assemblePoly env n c a on strict order p).1 = .error e) ∧
    (∀ f, newPolymorphic env n c (p.variants (unstarred o)) (p.commonOf o) on strict order .none = .ok f →
      ∃ s p', assemblePoly env n c a on strict order p = (.ok s, p') ∧ p'.schema s = f ∧ s.outer = a ∧ p'.outerAt a = unstarred o) := by
  obtain ⟨h1, h2, h3, h4, h5, h6, h7⟩ := spread_step ha hn hlt
  have hids : ((p.variants (unstarred o)).map fun e => (e.1, updated e.2 (p.commonOf o))) = (p.spread a o).variants (unstarred o) := by
    unfold variants
    rw [List.map_map]
    refine List.map_congr_left fun e he => ?_
    show (_, _) = (_, _)
    rw [h6 e.2 (List.mem_map_of_mem he)]
  have hids' : ((p.spread a o).variants (unstarred o)).map (·.1) = (unstarred o).map (·.1) := by
    unfold variants; rw [List.map_map]; rfl
  have hun : (o.eraseP fun e => isStar e.1) = unstarred o := rfl
  have hsub : ∀ d ∈ (unstarred o).map (·.2), d ∈ o.map (·.2) := by
    intro d hd
    obtain ⟨x, hx, rfl⟩ := List.mem_map.1 hd
    exact List.mem_map_of_mem (List.mem_of_mem_eraseP hx)
  have hnd : ((unstarred o).map (·.2)).Nodup := hn.sublist ((List.eraseP_sublist).map _)
  have htid := ht.of (q := p.spread a o) h1
  unfold newPolymorphic assemblePoly
  rw [ha]
  dsimp only
  rw [hids, hids', hun]
  cases hdisc : discriminator env n ((unstarred o).map (·.1)) on with
  | error e => exact ⟨fun e' h => by cases h; rfl, fun f h => by cases h⟩
  | ok disc =>
    simp only [except_bind_ok]
    cases hko : keyOrderOf order with
    | error e => exact ⟨fun e' h => by cases h; rfl, fun f h => by cases h⟩
    | ok ko =>
      simp only [except_bind_ok]
      rcases hname : disc.name with _ | _ | ⟨ch, name⟩
      · exact ⟨fun e' h => by cases h; rfl, fun f h => by cases h⟩
      · exact ⟨fun e' h => by cases h; rfl, fun f h => by cases h⟩
      · dsimp only
        have hstep := assembleVariants_step (env := env) (n := n) (disc := disc) (on := ch :: name) htid (r := unstarred o)
          (q := p.spread a o) hnd h7 (fun d hd => ⟨rfl, by rw [h3]; exact hlt d (hsub d hd)⟩) ⟨Nat.le_refl _, fun _ _ => .inl rfl⟩
        obtain ⟨s1, s2⟩ := hstep
        cases hb : builtVariants env n disc (ch :: name) ((p.spread a o).variants (unstarred o)) with
        | error e =>
          have he := s1 e hb
          cases hout : assembleVariants env n disc (ch :: name) (unstarred o) (p.spread a o) with
          | mk r q =>
            rw [hout] at he
            cases he
            exact ⟨fun e' h => by cases h; rfl, fun f h => by cases h⟩
        | ok vs =>
          obtain ⟨j1, j2, -, -, -, j6⟩ := s2 vs hb
          cases hout : assembleVariants env n disc (ch :: name) (unstarred o) (p.spread a o) with
          | mk r q =>
            rw [hout] at j1 j2 j6
            cases j1
            refine ⟨(fun e' h => by cases h), fun f h => ?_⟩
            have hf : f = .poly c disc vs strict ko := by
              simp only [except_bind_ok] at h
              have : withDefault env .none (.poly c disc vs strict ko) = .ok (.poly c disc vs strict ko) := rfl
              rw [this] at h
              cases h
              rfl
            have hq : q.outerAt a = unstarred o := by
              have : q.outerAt a = (p.spread a o).outerAt a := by unfold outerAt; rw [j6]
              rw [this, h2]
            refine ⟨_, _, rfl, ?_, rfl, hq⟩
            rw [hf]
            unfold schema
            dsimp only
            rw [hq, j2]

/-! ### What is touched -/

namespace Stock

theorem setCommon_congr {f : Field} {g g' : Common → Common} (h : ∀ c, f.common? = some c → g c = g' c) : f.setCommon g = f.setCommon g' := by
  cases f <;> simp only [Field.setCommon] <;> rw [h _ rfl]

theorem nameMember_cases (k : Str) (f : Field) : nameMember k f = f ∨ (¬ HasName f ∧ nameMember k f = withName k f) := by
  by_cases hn : HasName f
  · exact .inl (nameMember_named hn k)
  · refine .inr ⟨hn, ?_⟩
    have : ∀ c : Common, f.common? = some c → ∀ ch r, c.name ≠ some (ch :: r) := by
      intro c hc ch r h
      refine hn ⟨ch, r, ?_⟩
      unfold Field.name
      rw [hc]
      exact h
    refine setCommon_congr fun c hc => ?_
    have := this c hc
    cases h : c.name with
    | none => rfl
    | some s =>
      cases s with
      | nil => rfl
      | cons ch r => exact absurd h (this ch r)

/-- All that happened is that fields at these entries were named and these dicts written to. -/
structure Touch (p : Stock) (es : List (Str × Nat)) (ds : List Nat) (q : Stock) : Prop where
  length : p.fields.length ≤ q.fields.length
  field : ∀ i, i < p.fields.length → q.fieldAt i = p.fieldAt i ∨
    (¬ HasName (p.fieldAt i) ∧ ∃ k, (k, i) ∈ es ∧ q.fieldAt i = withName k (p.fieldAt i))
  entry : ∀ d ∈ ds, ∀ e ∈ q.dicts[d]?.getD [], e ∈ es ∨ p.fields.length ≤ e.2
  dict : ∀ d, d ∉ ds → q.dicts[d]? = p.dicts[d]?

theorem Touch.rename {p q : Stock} {es : List (Str × Nat)} {ds : List Nat} (h : Touch p es ds q) {e : Str × Nat}
    (he : e ∈ es ∨ p.fields.length ≤ e.2) : Touch p es ds (q.rename e.1 e.2) := by
  unfold Stock.rename
  cases hf : q.fields[e.2]? with
  | none => exact h
  | some f =>
    have hlt : e.2 < q.fields.length := (List.getElem?_eq_some_iff.1 hf).1
    have hfa : q.fieldAt e.2 = f := by unfold fieldAt; rw [hf]; rfl
    refine ⟨by simpa using h.length, fun i hi => ?_, h.entry, h.dict⟩
    dsimp only
    rw [fieldAt_set hlt rfl]
    by_cases hie : i = e.2
    · subst hie
      rw [if_pos rfl]
      have hes : e ∈ es := by rcases he with he | he; exact he; omega
      rcases nameMember_cases e.1 f with hc | ⟨hn, hc⟩
      · rw [hc, ← hfa]; exact h.field _ hi
      · rw [hc]
        rcases h.field _ hi with hq | ⟨hpn, k, -, hq⟩
        · rw [hfa] at hq
          subst hq
          exact .inr ⟨hn, e.1, hes, rfl⟩
        · rw [hfa] at hq
          subst hq
          refine .inr ⟨hpn, e.1, hes, ?_⟩
          generalize p.fieldAt e.2 = g
          cases g <;> rfl
    · rw [if_neg hie]; exact h.field i hi

theorem Touch.prevalidate {p : Stock} {es : List (Str × Nat)} {ds : List Nat} : ∀ {l : List (Str × Nat)} {q : Stock}, Touch p es ds q →
    (∀ e ∈ l, e ∈ es ∨ p.fields.length ≤ e.2) → Touch p es ds (q.prevalidate l)
  | [], _, h, _ => h
  | e :: l, q, h, hl =>
    Touch.prevalidate (l := l) (h.rename (hl e (List.mem_cons_self ..))) fun x hx => hl x (List.mem_cons_of_mem _ hx)

theorem prevalidate_dicts : ∀ {l : List (Str × Nat)} {q : Stock}, (q.prevalidate l).dicts = q.dicts ∧ (q.prevalidate l).outers = q.outers
  | [], _ => ⟨rfl, rfl⟩
  | e :: l, q => by
    have := prevalidate_dicts (l := l) (q := q.rename e.1 e.2)
    have h2 : (q.rename e.1 e.2).dicts = q.dicts ∧ (q.rename e.1 e.2).outers = q.outers := by
      unfold Stock.rename; split <;> exact ⟨rfl, rfl⟩
    exact ⟨this.1.trans h2.1, this.2.trans h2.2⟩

theorem Touch.write {p q : Stock} {es : List (Str × Nat)} {ds : List Nat} (h : Touch p es ds q) {d : Nat} (hd : d ∈ ds)
    {l : List (Str × Nat)} (hl : ∀ e ∈ l, e ∈ es ∨ p.fields.length ≤ e.2) : Touch p es ds { q with dicts := q.dicts.set d l } := by
  refine ⟨h.length, h.field, fun d' hd' e he => ?_, fun d' hd' => ?_⟩
  · dsimp only at he
    by_cases hdd : d = d'
    · subst hdd
      by_cases hlt : d < q.dicts.length
      · rw [List.getElem?_set_self hlt] at he; exact hl e he
      · rw [List.set_eq_of_length_le (Nat.le_of_not_lt hlt)] at he; exact h.entry d hd e he
    · rw [List.getElem?_set_ne hdd] at he; exact h.entry d' hd' e he
  · have hne : d ≠ d' := fun e => hd' (e ▸ hd)
    exact (List.getElem?_set_ne hne).trans (h.dict d' hd')

theorem Touch.update {p q : Stock} {es : List (Str × Nat)} {ds : List Nat} (h : Touch p es ds q) {common d : Nat} (hc : common ∈ ds)
    (hd : d ∈ ds) : Touch p es ds (q.update common d) := by
  unfold Stock.update
  split
  · rename_i new old hnew hold
    refine h.write hd fun e he => ?_
    rcases mem_foldl_keySet he with he | he
    · exact h.entry d hd e (by rw [hold]; exact he)
    · exact h.entry common hc e (by rw [hnew]; exact he)
  · exact h

theorem Touch.updates {p : Stock} {es : List (Str × Nat)} {ds : List Nat} {common : Nat} (hc : common ∈ ds) : ∀ {l : List Nat} {q : Stock},
    Touch p es ds q → (∀ d ∈ l, d ∈ ds) → Touch p es ds (l.foldl (fun p d => p.update common d) q)
  | [], _, h, _ => h
  | d :: l, q, h, hl =>
    Touch.updates hc (l := l) (h.update hc (hl d (List.mem_cons_self ..))) fun x hx => hl x (List.mem_cons_of_mem _ hx)

theorem Touch.add {p q : Stock} {es : List (Str × Nat)} {ds : List Nat} (h : Touch p es ds q) (f : Field) :
    Touch p es ds { q with fields := q.fields ++ [f] } := by
  refine ⟨by have := h.length; simp only [List.length_append]; omega, fun i hi => ?_, h.entry, h.dict⟩
  have : fieldAt { q with fields := q.fields ++ [f] } i = q.fieldAt i := by
    unfold fieldAt
    dsimp only
    rw [List.getElem?_append_left (Nat.lt_of_lt_of_le hi h.length)]
  rw [this]
  exact h.field i hi

theorem Touch.assemble {env : Env} {n : Nat} {disc : Field} {on : Str} {p : Stock} {es : List (Str × Nat)} {ds : List Nat} :
    ∀ {r : List (Val × Nat)} {q : Stock}, Touch p es ds q → (∀ d ∈ r.map (·.2), d ∈ ds) →
    Touch p es ds (assembleVariants env n disc on r q).2 ∧ (assembleVariants env n disc on r q).2.outers = q.outers
  | [], _, h, _ => ⟨h, rfl⟩
  | (id, d) :: r, q, h, hr => by
    have hd : d ∈ ds := hr d (List.mem_cons_self ..)
    unfold assembleVariants
    cases hq : q.dicts[d]? with
    | none => exact ⟨h, rfl⟩
    | some entries =>
      dsimp only
      have hent : ∀ e ∈ entries, e ∈ es ∨ p.fields.length ≤ e.2 := fun e he => h.entry d hd e (by rw [hq]; exact he)
      have hp := h.prevalidate hent
      have hpd := prevalidate_dicts (l := entries) (q := q)
      cases hc : cloneWith env n disc fun c => { c with constant := id } with
      | error e => exact ⟨hp, hpd.2⟩
      | ok member =>
        have h1 : Touch p es ds { q.prevalidate entries with
            fields := (q.prevalidate entries).fields ++ [member]
            dicts := q.dicts.set d (keySet on (q.prevalidate entries).fields.length entries) } := by
          rw [← hpd.1]
          refine (hp.add member).write hd fun e he => ?_
          rcases mem_keySet_or he with rfl | he
          · exact .inr hp.length
          · exact hent e he
        have := Touch.assemble (env := env) (n := n) (disc := disc) (on := on) (r := r) h1 fun x hx => hr x (List.mem_cons_of_mem _ hx)
        exact ⟨this.1, this.2.trans hpd.2⟩

end Stock

/-- Whatever is shared, and whether it succeeds or not, making a structure writes to no dict but the ones given, and changes
no field, except that a field in one of these dicts which had no name may be given one under which it is entered. -/
theorem C93_touches {env : Env} {n : Nat} {c : Common} {a : Nat} {on : On} {strict : Bool} {order : KeyOrder} {p : Stock}
    {o : List (Val × Nat)} (ha : p.outers[a]? = some o) :
    let q := (assemblePoly env n c a on strict order p).2
    (∀ i, i < p.fields.length → q.fieldAt i = p.fieldAt i ∨
      (¬ HasName (p.fieldAt i) ∧ ∃ k, (k, i) ∈ p.entriesOf (o.map (·.2)) ∧ q.fieldAt i = withName k (p.fieldAt i))) ∧
    (∀ d, d ∉ o.map (·.2) → q.dicts[d]? = p.dicts[d]?) ∧ (∀ b, b ≠ a → q.outers[b]? = p.outers[b]?) ∧
    (q.outerAt a = unstarred o) := by
  have halt : a < p.outers.length := (List.getElem?_eq_some_iff.1 ha).1
  have hsub : ∀ d ∈ (unstarred o).map (·.2), d ∈ o.map (·.2) := by
    intro d hd
    obtain ⟨x, hx, rfl⟩ := List.mem_map.1 hd
    exact List.mem_map_of_mem (List.mem_of_mem_eraseP hx)
  have h0 : ∀ p' : Stock, p'.fields = p.fields → p'.dicts = p.dicts → Touch p (p.entriesOf (o.map (·.2))) (o.map (·.2)) p' := by
    intro p' hf hd
    refine ⟨by rw [hf], fun i _ => .inl (by unfold Stock.fieldAt; rw [hf]), fun d hd' e he => .inl ?_, fun d _ => by rw [hd]⟩
    unfold entriesOf
    rw [List.mem_flatMap]
    exact ⟨d, hd', by rwa [← hd]⟩
  have upd_outers : ∀ (l : List Nat) (common : Nat) (q : Stock), (l.foldl (fun p d => p.update common d) q).outers = q.outers := by
    intro l common
    induction l with
    | nil => intro q; rfl
    | cons d l ih =>
      intro q
      rw [List.foldl_cons, ih]
      unfold Stock.update
      split <;> rfl
  have hspread : Touch p (p.entriesOf (o.map (·.2))) (o.map (·.2)) (p.spread a o) ∧ (p.spread a o).outerAt a = unstarred o ∧
      ∀ b, b ≠ a → (p.spread a o).outers[b]? = p.outers[b]? := by
    unfold spread
    cases hf : o.find? fun e => isStar e.1 with
    | none =>
      refine ⟨h0 p rfl rfl, ?_, fun _ _ => rfl⟩
      unfold outerAt
      rw [ha]
      exact (List.eraseP_of_forall_not fun e he => List.find?_eq_none.1 hf e he).symm
    | some e =>
      refine ⟨Touch.updates (List.mem_map_of_mem (List.mem_of_find?_eq_some hf)) (h0 _ rfl rfl) hsub, ?_, fun b hb => ?_⟩
      · unfold outerAt
        dsimp only
        rw [upd_outers]
        show (p.outers.set a _)[a]?.getD [] = _
        rw [List.getElem?_set_self halt]
        rfl
      · dsimp only
        rw [upd_outers]
        exact List.getElem?_set_ne fun h => hb h.symm
  intro q
  have hq : Touch p (p.entriesOf (o.map (·.2))) (o.map (·.2)) q ∧ q.outers = (p.spread a o).outers := by
    show Touch _ _ _ (assemblePoly env n c a on strict order p).2 ∧ _
    unfold q assemblePoly
    rw [ha]
    dsimp only
    cases discriminator env n ((o.eraseP fun e => isStar e.1).map (·.1)) on with
    | error e => exact ⟨hspread.1, rfl⟩
    | ok disc =>
      cases keyOrderOf order with
      | error e => exact ⟨hspread.1, rfl⟩
      | ok ko =>
        dsimp only
        rcases hname : disc.name with _ | _ | ⟨ch, name⟩
        · exact ⟨hspread.1, rfl⟩
        · exact ⟨hspread.1, rfl⟩
        · have := Touch.assemble (env := env) (n := n) (disc := disc) (on := ch :: name) (r := o.eraseP fun e => isStar e.1) hspread.1 hsub
          dsimp only
          cases hout : assembleVariants env n disc (ch :: name) (o.eraseP fun e => isStar e.1) (p.spread a o) with
          | mk r q' =>
            rw [hout] at this
            cases r with
            | error e => exact this
            | ok u => exact this
  refine ⟨hq.1.field, hq.1.dict, fun b hb => ?_, ?_⟩
  · rw [hq.2]; exact hspread.2.2 b hb
  · rw [← hspread.2.1]; unfold outerAt; rw [hq.2]

/-! ### One dict for two identities -/

namespace Stock

theorem rename_keeps {q : Stock} {k : Str} {i j : Nat} (hj : j < q.fields.length) (hn : HasName (q.fieldAt j)) :
    (q.rename k i).fieldAt j = q.fieldAt j ∧ (q.rename k i).fields.length = q.fields.length := by
  unfold Stock.rename
  cases hf : q.fields[i]? with
  | none => exact ⟨rfl, rfl⟩
  | some f =>
    have hlt : i < q.fields.length := (List.getElem?_eq_some_iff.1 hf).1
    refine ⟨?_, List.length_set⟩
    dsimp only
    rw [fieldAt_set hlt rfl]
    by_cases h : j = i
    · subst h
      have : q.fieldAt j = f := by unfold fieldAt; rw [hf]; rfl
      rw [if_pos rfl, this, nameMember_named (by rwa [← this])]
    · rw [if_neg h]

theorem prevalidate_keeps : ∀ {l : List (Str × Nat)} {q : Stock} {j : Nat}, j < q.fields.length → HasName (q.fieldAt j) →
    (q.prevalidate l).fieldAt j = q.fieldAt j ∧ (q.prevalidate l).fields.length = q.fields.length
  | [], _, _, _, _ => ⟨rfl, rfl⟩
  | e :: l, q, j, hj, hn => by
    obtain ⟨h1, h2⟩ := rename_keeps (k := e.1) (i := e.2) hj hn
    obtain ⟨h3, h4⟩ := prevalidate_keeps (l := l) (q := q.rename e.1 e.2) (j := j) (by omega) (by rwa [h1])
    exact ⟨h3.trans h1, h4.trans h2⟩

/-- Later variants leave other dicts and named fields alone. -/
theorem assemble_keeps {env : Env} {n : Nat} {disc : Field} {on : Str} : ∀ {r : List (Val × Nat)} {q : Stock} {j d : Nat},
    j < q.fields.length → HasName (q.fieldAt j) → d ∉ r.map (·.2) →
    (assembleVariants env n disc on r q).2.fieldAt j = q.fieldAt j ∧ (assembleVariants env n disc on r q).2.dicts[d]? = q.dicts[d]?
  | [], _, _, _, _, _, _ => ⟨rfl, rfl⟩
  | (id, d') :: r, q, j, d, hj, hn, hd => by
    unfold assembleVariants
    cases hq : q.dicts[d']? with
    | none => exact ⟨rfl, rfl⟩
    | some entries =>
      dsimp only
      obtain ⟨h1, h2⟩ := prevalidate_keeps (l := entries) hj hn
      have hpd := prevalidate_dicts (l := entries) (q := q)
      cases hc : cloneWith env n disc fun c => { c with constant := id } with
      | error e => exact ⟨h1, by rw [hpd.1]⟩
      | ok member =>
        dsimp only
        have hat : fieldAt { q.prevalidate entries with
            fields := (q.prevalidate entries).fields ++ [member]
            dicts := q.dicts.set d' (keySet on (q.prevalidate entries).fields.length entries) } j = q.fieldAt j := by
          rw [← h1]
          unfold fieldAt
          dsimp only
          rw [List.getElem?_append_left (by rw [h2]; exact hj)]
        obtain ⟨h3, h4⟩ := assemble_keeps (env := env) (n := n) (disc := disc) (on := on) (r := r)
          (q := { q.prevalidate entries with
            fields := (q.prevalidate entries).fields ++ [member]
            dicts := q.dicts.set d' (keySet on (q.prevalidate entries).fields.length entries) }) (j := j) (d := d)
          (by simp only [List.length_append, h2]; omega) (by rw [hat]; exact hn) (fun h => hd (List.mem_cons_of_mem _ h))
        refine ⟨h3.trans hat, h4.trans ?_⟩
        have hne : d' ≠ d := fun e => hd (by rw [← e]; exact List.mem_cons_self ..)
        exact List.getElem?_set_ne hne

theorem lookup_keySet_self {α : Type} {k : Str} {v : α} : ∀ {l : List (Str × α)}, (keySet k v l).lookup k = some v
  | [] => by simp [keySet]
  | (k', v') :: r => by
    unfold keySet
    split
    · rename_i h; subst h; simp
    · rename_i h
      rw [List.lookup_cons]
      have : (k == k') = false := by simpa using fun e => h e.symm
      rw [this]
      exact lookup_keySet_self

theorem last_writer {env : Env} {n : Nat} {disc : Field} {on : Str} (hname : ∀ id m, cloneWith env n disc (fun c => { c with constant := id }) = .ok m → HasName m)
    {id : Val} {d : Nat} {l2 : List (Val × Nat)} (hd : d ∉ l2.map (·.2)) : ∀ {l1 : List (Val × Nat)} {q q' : Stock},
    assembleVariants env n disc on (l1 ++ (id, d) :: l2) q = (.ok (), q') →
    ∃ m, cloneWith env n disc (fun c => { c with constant := id }) = .ok m ∧ (q'.members d).lookup on = some m
  | [], q, q', h => by
    rw [List.nil_append] at h
    unfold assembleVariants at h
    cases hq : q.dicts[d]? with
    | none => rw [hq] at h; cases h
    | some entries =>
      rw [hq] at h
      dsimp only at h
      cases hc : cloneWith env n disc fun c => { c with constant := id } with
      | error e => rw [hc] at h; cases h
      | ok member =>
        rw [hc] at h
        dsimp only at h
        refine ⟨member, rfl, ?_⟩
        have hdlt : d < q.dicts.length := (List.getElem?_eq_some_iff.1 hq).1
        generalize hq1 : (⟨(q.prevalidate entries).fields ++ [member],
          q.dicts.set d (keySet on (q.prevalidate entries).fields.length entries), (q.prevalidate entries).outers⟩ : Stock) = q1 at h
        have hat : q1.fieldAt (q.prevalidate entries).fields.length = member := by
          subst hq1
          unfold fieldAt
          dsimp only
          rw [List.getElem?_append_right (Nat.le_refl _)]
          simp
        obtain ⟨h3, h4⟩ := assemble_keeps (env := env) (n := n) (disc := disc) (on := on) (r := l2) (q := q1)
          (j := (q.prevalidate entries).fields.length) (d := d) (by subst hq1; simp) (by rw [hat]; exact hname id member hc) hd
        rw [h] at h3 h4
        have hcell : q'.dicts[d]? = some (keySet on (q.prevalidate entries).fields.length entries) := by
          rw [h4]
          subst hq1
          exact List.getElem?_set_self hdlt
        unfold members
        rw [hcell]
        show (List.map _ (keySet _ _ _)).lookup on = _
        rw [map_keySet, lookup_keySet_self, h3, hat]
  | (id', d') :: l1, q, q', h => by
    rw [List.cons_append] at h
    unfold assembleVariants at h
    cases hq : q.dicts[d']? with
    | none => rw [hq] at h; cases h
    | some entries =>
      rw [hq] at h
      dsimp only at h
      cases hc : cloneWith env n disc fun c => { c with constant := id' } with
      | error e => rw [hc] at h; cases h
      | ok member =>
        rw [hc] at h
        exact last_writer hname hd (l1 := l1) h

end Stock

namespace Stock

/-- No dict has a key twice. -/
def KeysOnce (p : Stock) : Prop := ∀ (d : Nat) (l : List (Str × Nat)), p.dicts[d]? = some l → (l.map (·.1)).Nodup

theorem KeysOnce.write {p : Stock} (h : KeysOnce p) {d : Nat} {l : List (Str × Nat)} (hl : (l.map (·.1)).Nodup) {f o} :
    KeysOnce ⟨f, p.dicts.set d l, o⟩ := by
  intro d' l' hd
  dsimp only at hd
  by_cases hdd : d = d'
  · subst hdd
    by_cases hlt : d < p.dicts.length
    · rw [List.getElem?_set_self hlt] at hd; cases hd; exact hl
    · rw [List.set_eq_of_length_le (Nat.le_of_not_lt hlt)] at hd; exact h d l' hd
  · rw [List.getElem?_set_ne hdd] at hd; exact h d' l' hd

theorem nodup_foldl {α : Type} : ∀ {new old : List (Str × α)}, (old.map (·.1)).Nodup →
    ((new.foldl (fun acc e => keySet e.1 e.2 acc) old).map (·.1)).Nodup
  | [], _, h => h
  | _ :: new, _, h => nodup_foldl (new := new) (nodup_keySet h)

theorem KeysOnce.update {p : Stock} (h : KeysOnce p) (common d : Nat) : KeysOnce (p.update common d) := by
  unfold Stock.update
  split
  · rename_i new old _ hold
    exact h.write (nodup_foldl (h d old hold))
  · exact h

theorem KeysOnce.updates {common : Nat} : ∀ {l : List Nat} {p : Stock}, KeysOnce p → KeysOnce (l.foldl (fun p d => p.update common d) p)
  | [], _, h => h
  | d :: l, _, h => KeysOnce.updates (l := l) (h.update common d)

theorem KeysOnce.spread {p : Stock} (h : KeysOnce p) (a : Nat) (o : List (Val × Nat)) : KeysOnce (p.spread a o) := by
  unfold Stock.spread
  split
  · exact KeysOnce.updates (p := { p with outers := _ }) fun d l hd => h d l hd
  · exact h

theorem KeysOnce.assemble {env : Env} {n : Nat} {disc : Field} {on : Str} : ∀ {r : List (Val × Nat)} {q : Stock}, KeysOnce q →
    KeysOnce (assembleVariants env n disc on r q).2
  | [], _, h => h
  | (id, d) :: r, q, h => by
    unfold assembleVariants
    cases hq : q.dicts[d]? with
    | none => exact h
    | some entries =>
      dsimp only
      cases hc : cloneWith env n disc fun c => { c with constant := id } with
      | error e =>
        intro d' l hd
        exact h d' l (by rw [prevalidate_dicts.1] at hd; exact hd)
      | ok member => exact KeysOnce.assemble (r := r) (h.write (nodup_keySet (h d entries hq)))

end Stock

theorem same_of_key {α β : Type} : ∀ {l : List (α × β)}, (l.map (·.1)).Nodup → ∀ {x y : α × β}, x ∈ l → y ∈ l → x.1 = y.1 → x = y
  | [], _, _, _, h, _, _ => by cases h
  | e :: l, hn, x, y, hx, hy, hxy => by
    rw [List.map_cons, List.nodup_cons] at hn
    rcases List.mem_cons.1 hx with hx | hx
    · rcases List.mem_cons.1 hy with hy | hy
      · rw [hx, hy]
      · exact absurd (by rw [← hx, hxy]; exact List.mem_map_of_mem hy) hn.1
    · rcases List.mem_cons.1 hy with hy | hy
      · exact absurd (by rw [← hy, ← hxy]; exact List.mem_map_of_mem hx) hn.1
      · exact same_of_key hn.2 hx hy hxy

/-- If one dict serves two identities, values of the earlier one are always refused: the discriminator in the dict has the
later identity for its constant. -/
theorem C93_shared {env : Env} {n : Nat} {c : Common} (hpre : c.pre = none) {a : Nat} {on : Str} {strict : Bool} {p : Stock}
    {o : List (Val × Nat)} (ha : p.outers[a]? = some o) (hk : KeysOnce p) (hids : ((unstarred o).map (·.1)).Nodup) {s : Assembled} {p' : Stock}
    (h : assemblePoly env n c a (.name on) strict .none p = (.ok s, p')) {l1 l2 : List (Val × Nat)} {id id' : Str} {d : Nat}
    (ho : unstarred o = l1 ++ (.str id, d) :: l2) (hl : (Val.str id', d) ∈ l1) (hd : d ∉ l2.map (·.2)) (m : Nat)
    {dd : List (Val × Val)} (hv : given dd on = some (.str id')) (ph : Phase) (ser : Bool) (anc : List Str) (w : Val) :
    process env m (p'.schema s) (.dict dd) ph ser anc ≠ .ok w := by
  have hq := (C93_touches (env := env) (n := n) (c := c) (on := .name on) (strict := strict) (order := .none) ha).2.2.2
  rw [h] at hq
  dsimp only at hq
  unfold assemblePoly at h
  rw [ha] at h
  dsimp only at h
  have hun : (o.eraseP fun e => isStar e.1) = unstarred o := rfl
  rw [hun] at h
  cases hdisc : discriminator env n ((unstarred o).map (·.1)) (.name on) with
  | error e => rw [hdisc] at h; cases h
  | ok disc =>
    rw [hdisc] at h
    obtain ⟨ids, hidt, hg⟩ := generatedOn_name hdisc
    obtain ⟨vals, rfl, hvals⟩ := hg.form
    dsimp only [keyOrderOf] at h
    cases on with
    | nil => cases h
    | cons ch name =>
      dsimp only [Field.name, Field.common?, Option.bind_some] at h
      cases hout : assembleVariants env n (.leaf { name := some (ch :: name), nonnull := true, required := true } (.enumeration vals []))
          (ch :: name) (unstarred o) (p.spread a o) with
      | mk r q =>
        rw [hout] at h
        cases r with
        | error e => cases h
        | ok u =>
          cases h
          have hkey : KeysOnce p' := by
            have := (hk.spread a o).assemble (env := env) (n := n)
              (disc := .leaf { name := some (ch :: name), nonnull := true, required := true } (.enumeration vals [])) (on := ch :: name) (r := unstarred o)
            rw [hout] at this
            exact this
          rw [ho] at hout
          obtain ⟨mem, hm, hlook⟩ := last_writer (fun id m hm => by rw [cloneWith_leaf hm]; exact ⟨ch, name, rfl⟩) hd hout
          have hmem := cloneWith_leaf hm
          unfold schema
          dsimp only
          rw [hq]
          cases m with
          | zero => intro hp; cases hp
          | succ m =>
            intro hp
            rw [poly_ok hpre (fun e he => by
              obtain ⟨x, hx, rfl⟩ := List.mem_map.1 he
              show ((p'.members x.2).map (·.1)).Nodup
              unfold members
              rw [List.map_map]
              cases hx : p'.dicts[x.2]? with
              | none => exact List.nodup_nil
              | some l => exact hkey x.2 l hx)] at hp
            rcases hp with ⟨hp, -⟩ | ⟨dd', raw, idv, defn, hdd, hraw, hrn, hproc, -, hvar, -, -, slots, hs1, hs2, -⟩
            · cases hp
            cases hdd
            have hraw' : raw = .str id' := by
              have : some raw = some (.str id') := hraw.symm.trans hv
              cases this; rfl
            subst hraw'
            cases m with
            | zero => cases hproc
            | succ m =>
              rw [C24_iff env m _ vals [] rfl _ _ (by simp) (by simp) ph ser _ (by simp)] at hproc
              obtain ⟨rfl, -, -⟩ := hproc
              have hdefn : defn = p'.members d := by
                unfold variantFor variants at hvar
                rw [Option.map_eq_some_iff] at hvar
                obtain ⟨e, he, rfl⟩ := hvar
                have hk1 := List.find?_some (p := fun e : Val × List (Str × Field) => pyEq (.str id') e.1) he
                obtain ⟨x, hx, rfl⟩ := List.mem_map.1 (List.mem_of_find?_eq_some he)
                have hx1 : x.1 = .str id' := by
                  dsimp only at hk1
                  exact (pyEq_str_left _ _).1 hk1
                have hx' : (Val.str id', d) ∈ unstarred o := by rw [ho]; exact List.mem_append_left _ hl
                have : x = (.str id', d) := by
                  exact same_of_key hids hx hx' hx1
                rw [this]
              subst hdefn
              have hon : (ch :: name) ∈ slots.map (·.1) := by
                rw [hs1, ← lookup_isSome, hlook]; rfl
              obtain ⟨slot, hslot, hname⟩ := List.mem_map.1 hon
              obtain ⟨g, cg, ⟨f, hf1, hf2, hf3⟩, -, hin⟩ := hs2 slot hslot
              rw [hname] at hf1 hin
              rw [hlook] at hf1
              cases hf1
              rw [hmem] at hf2
              cases hf2
              cases hf3
              rw [hv] at hin
              rcases hin with ⟨hin, -⟩ | ⟨v, w', hin, -, hproc⟩
              · simp [memberInput] at hin
              · have : v = .str id' := by simpa [memberInput] using hin.symm
                subst this
                rw [C24_iff env m _ vals [] rfl _ _ (by simp) (by simp) ph ser _ (by simp)] at hproc
                obtain ⟨-, hconst, -⟩ := hproc
                rcases hconst with hc | hc
                · cases hc
                · have : Val.str id = Val.str id' := ((pyEq_str_left _ _).1 hc)
                  cases this
                  rw [ho, List.map_append, List.map_cons] at hids
                  have := (List.nodup_append.1 hids).2.2 _ (List.mem_map_of_mem hl) _ (List.mem_cons_self ..)
                  exact this rfl

/-! ### Using the dicts again -/

theorem keySet_twice {α : Type} {k : Str} {v : α} : ∀ {l : List (Str × α)}, keySet k v (keySet k v l) = keySet k v l
  | [] => by simp [keySet]
  | (k', v') :: r => by
    by_cases h : k' = k
    · rw [keySet, if_pos h, keySet, if_pos h]
    · rw [keySet, if_neg h, keySet, if_neg h, keySet_twice]

theorem prevalidated_again {env : Env} {on : Str} {m : Field} {cm : Common} (hm : m.common? = some cm) (hon : nameMember on m = m) :
    ∀ {l : List (Str × Field)}, (∀ e ∈ l, ∃ c, e.2.common? = some c) →
    prevalidated env (keySet on m (prevalidated env l)) = keySet on m (prevalidated env l) := by
  have hres : ∀ {f : Field} {c : Common}, f.common? = some c → resolve env f = some f := by
    intro f c h
    cases f <;> first | rfl | cases h
  have hcom : ∀ {f : Field} {c : Common} (k : Str), f.common? = some c → ∃ c', (nameMember k f).common? = some c' := by
    intro f c k h
    cases f <;> first | exact ⟨_, rfl⟩ | cases h
  have hpre : ∀ l : List (Str × Field), (∀ e ∈ l, ∃ c, e.2.common? = some c) → prevalidated env (prevalidated env l) = prevalidated env l := by
    intro l
    induction l with
    | nil => intro _; rfl
    | cons e l ih =>
      intro hl
      obtain ⟨c, hc⟩ := hl e (List.mem_cons_self ..)
      obtain ⟨c', hc'⟩ := hcom e.1 hc
      obtain ⟨k, f⟩ := e
      dsimp only at hc hc'
      simp only [prevalidated, hres hc, hres hc', named_or]
      rw [ih fun x hx => hl x (List.mem_cons_of_mem _ hx)]
  intro l
  induction l with
  | nil =>
    intro _
    show prevalidated env [(on, m)] = [(on, m)]
    simp only [prevalidated, hres hm, hon]
  | cons e l ih =>
    intro hl
    obtain ⟨c, hc⟩ := hl e (List.mem_cons_self ..)
    obtain ⟨c', hc'⟩ := hcom e.1 hc
    have ih := ih fun x hx => hl x (List.mem_cons_of_mem _ hx)
    have hp := hpre l fun x hx => hl x (List.mem_cons_of_mem _ hx)
    obtain ⟨k, f⟩ := e
    dsimp only at hc hc'
    simp only [prevalidated, hres hc, keySet]
    split
    · rename_i hk
      subst hk
      simp only [prevalidated, hres hm, hon, hp]
    · simp only [prevalidated, hres hc', named_or, ih]

theorem builtVariants_ids {env : Env} {n : Nat} {cd : Common} {k : Leaf} {on : Str} : ∀ {vs vs' out : List (Val × List (Str × Field))},
    builtVariants env n (.leaf cd k) on vs = .ok out → vs'.map (·.1) = vs.map (·.1) →
    builtVariants env n (.leaf cd k) on vs' = .ok (vs'.map fun e => (e.1, keySet on (discFor env (.leaf cd k) e.1) (prevalidated env e.2)))
  | [], [], _, _, _ => rfl
  | [], _ :: _, _, _, h => by cases h
  | _ :: _, [], _, _, h => by cases h
  | (id, defn) :: vs, (id', defn') :: vs', out, h, hi => by
    rw [List.map_cons, List.map_cons, List.cons.injEq] at hi
    obtain ⟨rfl, hi⟩ := hi
    simp only [builtVariants, except_bind_eq_ok, except_pure, Except.ok.injEq] at h
    obtain ⟨m, hm, r', hr, rfl⟩ := h
    simp only [builtVariants]
    rw [hm, builtVariants_ids hr hi, cloneWith_leaf hm]
    rfl

/-- Making a structure again of the dicts that a structure was made of gives an equal structure. -/
theorem C93_again {env : Env} {n : Nat} {c : Common} {variants : List (Val × List (Str × Field))} {common : List (Str × Field)}
    (hv : ∀ e ∈ variants, ∀ x ∈ e.2, ∃ c, x.2.common? = some c) (hc : ∀ x ∈ common, ∃ c, x.2.common? = some c) {on : Str} {strict : Bool}
    {order : KeyOrder} {disc : Field} {vs : List (Val × List (Str × Field))} {ko : List Str}
    (h : newPolymorphic env n c variants common (.name on) strict order .none = .ok (.poly c disc vs strict ko)) :
    newPolymorphic env n c vs [] (.name on) strict order .none = .ok (.poly c disc vs strict ko) := by
  simp only [newPolymorphic] at h ⊢
  obtain ⟨disc', hdisc, h⟩ := except_bind_eq_ok.1 h
  obtain ⟨ko', hko, h⟩ := except_bind_eq_ok.1 h
  rw [List.map_map] at hdisc
  obtain ⟨ids, hids, hg⟩ := generatedOn_name hdisc
  obtain ⟨vals, rfl, hvals⟩ := hg.form
  cases on with
  | nil => cases h
  | cons ch name =>
    simp only [Field.name, Field.common?, Option.bind_some] at h
    obtain ⟨vs', hvs, h⟩ := except_bind_eq_ok.1 h
    have hw : ∀ f : Field, withDefault env .none f = .ok f := by
      intro f
      unfold withDefault
      cases f.common? <;> rfl
    rw [hw] at h
    cases h
    have hform := builtVariants_leaf hvs
    have hsame : (vs.map fun e => (e.1, updated e.2 [])) = vs := by
      exact (List.map_congr_left (g := id) fun e _ => rfl).trans (List.map_id _)
    have hvid : vs.map (·.1) = (variants.map fun e => (e.1, updated e.2 common)).map (·.1) := by
      rw [hform, List.map_map]; rfl
    rw [hsame, hvid, List.map_map, hdisc]
    simp only [except_bind_ok, hko, Field.name, Field.common?, Option.bind_some]
    rw [builtVariants_ids hvs hvid]
    simp only [except_bind_ok, hw, Except.ok.injEq]
    congr 1
    refine (List.map_congr_left (g := id) fun e he => ?_).trans (List.map_id _)
    rw [hform] at he
    obtain ⟨x, hx, rfl⟩ := List.mem_map.1 he
    obtain ⟨y, hy, rfl⟩ := List.mem_map.1 hx
    dsimp only [id]
    rw [prevalidated_again (cm := _) rfl rfl fun z hz => ?_, keySet_twice]
    rcases mem_foldl_keySet hz with hz | hz
    · exact hv y hy z hz
    · exact hc z hz

/-- Making a structure of them with another discriminator does not: the earlier discriminator has become a member, which is
required. -/
theorem C93_other_name {env : Env} {n : Nat} {c c' : Common} {variants : List (Val × List (Str × Field))} {common : List (Str × Field)}
    (hnd : (common.map (·.1)).Nodup) {on on' : Str} (hne : on ≠ on') {strict strict' : Bool} {order order' : KeyOrder} {disc disc' : Field}
    {vs vs' : List (Val × List (Str × Field))} {ko ko' : List Str}
    (h : newPolymorphic env n c variants common (.name on) strict order .none = .ok (.poly c disc vs strict ko))
    (h' : newPolymorphic env n c' vs [] (.name on') strict' order' .none = .ok (.poly c' disc' vs' strict' ko')) :
    ∀ e ∈ vs', ∃ g cg, Declares env e.2 on g cg ∧ cg.required = true ∧ cg.default = .none := by
  obtain ⟨ids, v, d, vs1, ko1, -, hg, he, -, hall⟩ := C66_built env n c variants common hnd on strict order .none _ h
  obtain ⟨ids', v', d', vs2, ko2, -, -, he', -, hall'⟩ := C66_built env n c' vs [] List.nodup_nil on' strict' order' .none _ h'
  obtain ⟨vals, rfl, -⟩ := hg.form
  injection he with _ _ he
  subst he
  injection he' with _ _ he'
  subst he'
  intro e hmem
  have key : ∀ {a b : List (Val × List (Str × Field))} {R : Val × List (Str × Field) → Val × List (Str × Field) → Prop}, All2 R a b →
      ∀ y ∈ b, ∃ x ∈ a, R x y := by
    intro a b R hR
    induction hR with
    | nil => intro y hy; cases hy
    | cons hxy _ ih =>
      intro y hy
      rcases List.mem_cons.1 hy with rfl | hy
      · exact ⟨_, List.mem_cons_self .., hxy⟩
      · obtain ⟨x, hx, hr⟩ := ih y hy
        exact ⟨x, List.mem_cons_of_mem _ hx, hr⟩
  obtain ⟨x, hx, -, hxm⟩ := key hall' e hmem
  obtain ⟨y, hy, -, hym⟩ := key hall x hx
  have hlook := hym.discriminator
  have hdecl : declaredMember x.2 [] on = some (discFor env (.leaf { name := some on, nonnull := true, required := true } (.enumeration vals [])) y.1) := by
    unfold declaredMember
    simpa using hlook
  obtain ⟨g, hg1, hg2⟩ := hxm.present on _ hne hdecl
  rcases hg2 with ⟨k3, -⟩ | ⟨f', k3, k4⟩
  · cases k3
  · cases k3
    rcases k4 with ⟨-, -, -, rfl⟩ | ⟨-, rfl⟩
    · exact ⟨_, _, ⟨_, hg1, rfl, rfl⟩, rfl, rfl⟩
    · exact ⟨_, _, ⟨_, hg1, rfl, rfl⟩, rfl, rfl⟩

/-! ### Plain structures -/

/-- A plain structure is made of the caller's dict as of its value if no field without name is entered under two names; the
dict is kept, not copied. -/
theorem C93_plain {env : Env} {p : Stock} {d : Nat} {entries : List (Str × Nat)} (hd : p.dicts[d]? = some entries) (ht : Tidy p entries) :
    (assemblePlain p d).1 = .ok () ∧ (assemblePlain p d).2.members d = prevalidated env (p.members d) ∧ (assemblePlain p d).2.dicts = p.dicts := by
  obtain ⟨-, -, h3, h4, -, -⟩ := prevalidate_step ht (l := entries) (q := p) (fun _ h => h) ⟨Nat.le_refl _, fun _ _ => .inl rfl⟩
  have ha : assemblePlain p d = (.ok (), p.prevalidate entries) := by unfold assemblePlain; rw [hd]
  rw [ha]
  refine ⟨rfl, ?_, h4⟩
  unfold members
  rw [h4, hd]
  show List.map _ entries = prevalidated env (List.map _ entries)
  rw [prevalidated_map fun e he => ht.common he]
  refine List.map_congr_left fun e he => ?_
  rw [h3 e he]

namespace Ex

def textObj : Field := .leaf {} (.text none none none true)
def intObj : Field := .leaf {} (.integer none none)
def boolObj : Field := .leaf {} .boolean

/-- `{'*': {'z': Boolean()}, 'a': {'x': Text()}, 'b': {'y': Integer()}}` -/
def starredStock : Stock := ⟨[textObj, intObj, boolObj], [[(c!"x", 0)], [(c!"y", 1)], [(c!"z", 2)]], [[(.str c!"*", 2), (.str c!"a", 0), (.str c!"b", 1)]]⟩

/-- `d = {'x': Text()}; {'a': d, 'b': d}` -/
def sharingStock : Stock := ⟨[textObj], [[(c!"x", 0)]], [[(.str c!"a", 0), (.str c!"b", 0)]]⟩

/-- `f = Text(); {'x': f, 'y': f}` -/
def doubleStock : Stock := ⟨[textObj], [[(c!"x", 0), (c!"y", 0)]], []⟩

end Ex

/-- A field without name that is entered under two names is named by the first of them. -/
theorem C93_first_name :
    (assemblePlain Ex.doubleStock 0).2.members 0 =
      [(c!"x", withName c!"x" Ex.textObj), (c!"y", withName c!"x" Ex.textObj)] ∧
    (prevalidated Ex.env (Ex.doubleStock.members 0)) = [(c!"x", withName c!"x" Ex.textObj), (c!"y", withName c!"y" Ex.textObj)] :=
  ⟨rfl, rfl⟩

/-- The members under `*` end up in both variants, and `*` is gone from the caller's dict. -/
example : ∃ s p' f, newPolymorphic Ex.env 3 {} [(.str c!"a", [(c!"x", Ex.textObj)]), (.str c!"b", [(c!"y", Ex.intObj)])] [(c!"z", Ex.boolObj)]
      (.name c!"type") true .none .none = .ok f ∧
    assemblePoly Ex.env 3 {} 0 (.name c!"type") true .none Ex.starredStock = (.ok s, p') ∧ p'.schema s = f ∧
    p'.outerAt 0 = [(.str c!"a", 0), (.str c!"b", 1)] := by
  have ht : Tidy Ex.starredStock (Ex.starredStock.entriesOf [2, 0, 1]) := by
    have hes : Ex.starredStock.entriesOf [2, 0, 1] = [(c!"z", 2), (c!"x", 0), (c!"y", 1)] := rfl
    rw [hes]
    refine ⟨fun e he => ?_, fun e he e' he' h _ => ?_⟩
    · simp only [List.mem_cons, List.not_mem_nil, or_false] at he
      rcases he with rfl | rfl | rfl <;> exact ⟨_, _, rfl, rfl⟩
    · simp only [List.mem_cons, List.not_mem_nil, or_false] at he he'
      rcases he with rfl | rfl | rfl <;> rcases he' with rfl | rfl | rfl <;> first | rfl | cases h
  have := (C93_separate (env := Ex.env) (n := 3) (c := {}) (a := 0) (on := .name c!"type") (strict := true) (order := .none) (p := Ex.starredStock) rfl
    (by decide) (by decide) ht).2 _ rfl
  obtain ⟨s, p', h1, h2, -, h3⟩ := this
  exact ⟨s, p', _, rfl, h1, h2, h3⟩

/-- One dict for `a` and `b`: every `a` is refused, and a `b` is accepted. -/
example : ∃ s p', assemblePoly Ex.env 3 {} 0 (.name c!"type") true .none Ex.sharingStock = (.ok s, p') ∧
    (∀ m dd ph ser anc w, given dd c!"type" = some (.str c!"a") → process Ex.env m (p'.schema s) (.dict dd) ph ser anc ≠ .ok w) ∧
    process Ex.env 3 (p'.schema s) (.dict [(.str c!"type", .str c!"b")]) .inbound false [] = .ok (.dict [(.str c!"type", .str c!"b")]) := by
  refine ⟨_, _, rfl, fun m dd ph ser anc w hv => ?_, rfl⟩
  refine C93_shared (env := Ex.env) (n := 3) (c := {}) rfl (a := 0) (on := c!"type") (strict := true) (p := Ex.sharingStock) rfl ?_ (show List.Nodup [Val.str c!"a", Val.str c!"b"] by simp) rfl
    (l1 := [(.str c!"a", 0)]) (l2 := []) (id := c!"b") (d := 0) rfl (List.mem_cons_self ..) (by simp) m hv ph ser anc w
  intro d l hd
  match d with
  | 0 => cases hd; decide
  | d + 1 => cases hd

/-- The dicts used again, and with another discriminator. -/
example : ∃ vs vs' disc disc', newPolymorphic Ex.env 3 {} [(.str c!"a", [(c!"x", Ex.textObj)])] [] (.name c!"type") true .none .none = .ok (.poly {} disc vs true []) ∧
    newPolymorphic Ex.env 3 {} vs [] (.name c!"kind") true .none .none = .ok (.poly {} disc' vs' true []) ∧
    vs'.map (fun e => e.2.map (·.1)) = [[c!"x", c!"type", c!"kind"]] := ⟨_, _, _, _, rfl, rfl, rfl⟩

end Scheme
