import Verif.Props.Trim
import Verif.Props.Asked

/-! C100: a schema without some of its members interpolates the corresponding part. -/

namespace Scheme

/-- The outcomes with all members and with some. -/
def Narrowed {α : Type} (R : α → α → Prop) (p q : Except Exn α) : Prop :=
  (∃ e, e ≠ .undefinedParameter ∧ p = .error e) ∨ (p = .error .undefinedParameter ∧ q = .error .undefinedParameter) ∨
    ∃ w w', p = .ok w ∧ q = .ok w' ∧ R w w'

theorem Narrowed.bind {α β : Type} {R : α → α → Prop} {S : β → β → Prop} {p q : Except Exn α} {f g : α → Except Exn β} (h : Narrowed R p q)
    (hf : ∀ w w', R w w' → Narrowed S (f w) (g w')) : Narrowed S (p >>= f) (q >>= g) := by
  rcases h with ⟨e, he, rfl⟩ | ⟨rfl, rfl⟩ | ⟨w, w', rfl, rfl, hr⟩
  · exact .inl ⟨e, he, rfl⟩
  · exact .inr (.inl ⟨rfl, rfl⟩)
  · exact hf w w' hr

theorem Narrowed.map {α β : Type} {R : α → α → Prop} {S : β → β → Prop} {p q : Except Exn α} {f : α → β} (h : Narrowed R p q)
    (hf : ∀ w w', R w w' → S (f w) (f w')) : Narrowed S (p.map f) (q.map f) := by
  rcases h with ⟨e, he, rfl⟩ | ⟨rfl, rfl⟩ | ⟨w, w', rfl, rfl, hr⟩
  · exact .inl ⟨e, he, rfl⟩
  · exact .inr (.inl ⟨rfl, rfl⟩)
  · exact .inr (.inr ⟨_, _, rfl, rfl, hf w w' hr⟩)

theorem Narrowed.refl {α : Type} {R : α → α → Prop} (hR : ∀ w, R w w) (p : Except Exn α) : Narrowed R p p := by
  match p with
  | .ok w => exact .inr (.inr ⟨w, w, rfl, rfl, hR w⟩)
  | .error e =>
    by_cases he : e = .undefinedParameter
    · subst he; exact .inr (.inl ⟨rfl, rfl⟩)
    · exact .inl ⟨e, he, rfl⟩

theorem Narrowed.failed {α : Type} {R : α → α → Prop} {q : Except Exn α} (e : Exn) (he : e ≠ .undefinedParameter) : Narrowed R (.error e) q :=
  .inl ⟨e, he, rfl⟩

section
variable {env : Env} {r : Ext} {R : Field → Field → Prop}

/-- The call of a child: the fields stand for the same ones as in `TrimItems`. -/
def ChildNarrowed (env : Env) (f f' : Field) (w w' : Val) : Prop :=
  ∃ g g', resolve env f = some g ∧ resolve env f' = some g' ∧ Trim env g g' w w'

theorem child_narrowed (hr : ∀ g g' v, R g g' → Narrowed (Trim env g g') (r g v) (r g' v)) {f f' : Field}
    (h : NarrowChild env R f f') (v : Val) : Narrowed (ChildNarrowed env f f') (extractChild env r f v) (extractChild env r f' v) := by
  unfold extractChild
  cases hg : resolve env f with
  | none => exact .failed _ (by intro h; cases h)
  | some g =>
    obtain ⟨g', hg', hR⟩ := h g hg
    rw [hg']
    dsimp only
    rcases hr g g' v hR with h | h | ⟨w, w', h1, h2, ht⟩
    · exact .inl h
    · exact .inr (.inl h)
    · exact .inr (.inr ⟨w, w', h1, h2, g, g', hg, hg', ht⟩)

theorem items_narrowed (hr : ∀ g g' v, R g g' → Narrowed (Trim env g g') (r g v) (r g' v)) {item item' : Field}
    (h : NarrowChild env R item item') : ∀ l, Narrowed (TrimItems env item item') (interpolateItems env r item l) (interpolateItems env r item' l)
  | [] => .inr (.inr ⟨_, _, rfl, rfl, .nil⟩)
  | v :: l => by
    refine .bind (child_narrowed hr h v) fun x x' ⟨g, g', hg, hg', hx⟩ => ?_
    refine .bind (items_narrowed hr h l) fun y y' hy => ?_
    exact .inr (.inr ⟨_, _, rfl, rfl, .cons hg hg' hx hy⟩)

theorem slots_narrowed (hr : ∀ g g' v, R g g' → Narrowed (Trim env g g') (r g v) (r g' v)) :
    ∀ {fs fs' : List Field} (l : List Val), fs'.length = fs.length →
      (∀ (i : Nat) f f', fs[i]? = some f → fs'[i]? = some f' → NarrowChild env R f f') →
      Narrowed (TrimSlots env fs fs') (interpolateSlots env r fs l) (interpolateSlots env r fs' l)
  | [], [], _, _, _ => .inr (.inr ⟨_, _, rfl, rfl, .nil⟩)
  | _ :: _, _ :: _, [], _, _ => .failed (.py .indexError) (by intro h; cases h)
  | f :: fs, f' :: fs', v :: l, hl, h => by
    refine .bind (child_narrowed hr (h 0 f f' rfl rfl) v) fun x x' ⟨g, g', hg, hg', hx⟩ => ?_
    refine .bind (slots_narrowed hr l (Nat.succ.inj hl) fun i f f' hf hf' => h (i + 1) f f' hf hf') fun y y' hy => ?_
    exact .inr (.inr ⟨_, _, rfl, rfl, .cons hg hg' hx hy⟩)

theorem Narrowed.entry {S : Val → Val → Prop} {p q : Except Exn Val} (h : Narrowed S p q) :
    Narrowed (fun o o' => (o = none ∧ o' = none) ∨ ∃ w w', o = some w ∧ o' = some w' ∧ S w w') (notUndefined p) (notUndefined q) := by
  rcases h with ⟨e, he, rfl⟩ | ⟨rfl, rfl⟩ | ⟨w, w', rfl, rfl, hr⟩
  · exact .inl ⟨e, he, by cases e <;> first | rfl | exact absurd rfl he⟩
  · exact .inr (.inr ⟨_, _, rfl, rfl, .inl ⟨rfl, rfl⟩⟩)
  · exact .inr (.inr ⟨_, _, rfl, rfl, .inr ⟨w, w', rfl, rfl, hr⟩⟩)

theorem entries_narrowed (hr : ∀ g g' v, R g g' → Narrowed (Trim env g g') (r g v) (r g' v)) {value value' : Field}
    (h : NarrowChild env R value value') :
    ∀ d, Narrowed (TrimValues env value value') (interpolateEntries env r value d) (interpolateEntries env r value' d)
  | [] => .inr (.inr ⟨_, _, rfl, rfl, .nil⟩)
  | (k, v) :: d => by
    refine .bind (child_narrowed hr h v).entry fun x x' hx => ?_
    refine .bind (entries_narrowed hr h d) fun y y' hy => ?_
    refine .inr (.inr ⟨_, _, rfl, rfl, ?_⟩)
    rcases hx with ⟨rfl, rfl⟩ | ⟨w, w', rfl, rfl, g, g', hg, hg', hx⟩
    · exact hy
    · exact .cons hg hg' hx hy

theorem members_narrowed (hr : ∀ g g' v, R g g' → Narrowed (Trim env g g') (r g v) (r g' v))
    (hu : ∀ i v, ∃ e, e ≠ .undefinedParameter ∧ r (.undef i) v = .error e) {d : List (Val × Val)} {D D' : List (Str × Field)}
    (hk : ∀ name f f', D.lookup name = some f → D'.lookup name = some f' → ∀ g c, resolve env f = some g → g.common? = some c →
      ∃ g', resolve env f' = some g' ∧ R g g') :
    ∀ {defn defn' : List (Str × Field)}, (defn.map (·.1)).Nodup → (defn'.map (·.1)).Sublist (defn.map (·.1)) →
      (∀ e ∈ defn, D.lookup e.1 = some e.2) → (∀ e ∈ defn', D'.lookup e.1 = some e.2) →
      (∀ e ∈ defn, e.1 ∉ defn'.map (·.1) → D'.lookup e.1 = none) →
      Narrowed (TrimEntries env D D') (interpolateMembers env r d defn) (interpolateMembers env r d defn')
  | [], [], _, _, _, _, _ => .inr (.inr ⟨_, _, rfl, rfl, .nil⟩)
  | [], _ :: _, _, hs, _, _, _ => by cases hs
  | (name, f) :: defn, defn', hnd, hs, hD, hD', hn => by
    have hname : name ∉ defn.map (·.1) ∧ (defn.map (·.1)).Nodup := List.nodup_cons.1 hnd
    have hf : D.lookup name = some f := hD _ List.mem_cons_self
    by_cases hin : name ∈ defn'.map (·.1)
    · cases defn' with
      | nil => cases hin
      | cons e' defn' =>
        obtain ⟨name', f'⟩ := e'
        have hs' : (name' :: defn'.map (·.1)).Sublist (name :: defn.map (·.1)) := hs
        have hsub : (defn'.map (·.1)).Sublist (defn.map (·.1)) ∧ name' = name := by
          cases hs' with
          | cons _ hs' => exact absurd (hs'.subset hin) hname.1
          | cons_cons _ hs' => exact ⟨hs', rfl⟩
        obtain ⟨hs2, rfl⟩ := hsub
        have hf' : D'.lookup name' = some f' := hD' _ List.mem_cons_self
        have hrest := members_narrowed hr hu (d := d) hk hname.2 hs2 (fun e he => hD e (List.mem_cons_of_mem _ he))
          (fun e he => hD' e (List.mem_cons_of_mem _ he)) fun e he hne => hn e (List.mem_cons_of_mem _ he) fun hm => by
            rcases List.mem_cons.1 hm with h | h
            · exact hname.1 (List.mem_map.2 ⟨e, he, h⟩)
            · exact hne h
        unfold interpolateMembers
        cases hv : dictGet d (.str name') with
        | none => exact hrest
        | some v =>
          have hc : Narrowed (ChildNarrowed env f f') (extractChild env r f v) (extractChild env r f' v) := by
            cases hg : resolve env f with
            | none => unfold extractChild; rw [hg]; exact .failed _ (by intro h; cases h)
            | some g =>
              cases hcom : g.common? with
              | none =>
                cases g <;> first | cases hcom | skip
                obtain ⟨e, he, hx⟩ := hu _ v
                unfold extractChild
                rw [hg]
                exact .inl ⟨e, he, hx⟩
              | some c =>
                obtain ⟨g', hg', hR⟩ := hk name' f f' hf hf' g c hg hcom
                exact child_narrowed hr (fun g2 h2 => by rw [hg] at h2; cases h2; exact ⟨g', hg', hR⟩) v
          refine .bind hc.entry fun x x' hx => ?_
          refine .bind hrest fun y y' hy => ?_
          refine .inr (.inr ⟨_, _, rfl, rfl, ?_⟩)
          rcases hx with ⟨rfl, rfl⟩ | ⟨w, w', rfl, rfl, g, g', hg, hg', hx⟩
          · exact hy
          · exact .keep hf hf' hg hg' hx hy
    · have hs' : (defn'.map (·.1)).Sublist (defn.map (·.1)) := by
        have hs' : (defn'.map (·.1)).Sublist (name :: defn.map (·.1)) := hs
        generalize defn'.map (·.1) = l at hs' hin
        cases hs' with
        | cons _ hs' => exact hs'
        | cons_cons _ hs' => exact absurd List.mem_cons_self hin
      have hrest := members_narrowed hr hu (d := d) hk hname.2 hs' (fun e he => hD e (List.mem_cons_of_mem _ he)) hD'
        fun e he => hn e (List.mem_cons_of_mem _ he)
      have hf' : D'.lookup name = none := hn _ List.mem_cons_self hin
      rw [interpolateMembers]
      cases hv : dictGet d (.str name) with
      | none => exact hrest
      | some v =>
        dsimp only
        cases hx : notUndefined (extractChild env r f v) with
        | error e =>
          refine .failed e ?_
          rintro rfl
          generalize extractChild env r f v = q at hx
          match q with
          | .ok w => cases hx
          | .error e => cases e <;> cases hx
        | ok x =>
          show Narrowed _ (interpolateMembers env r d defn >>= fun r' => pure (keepEntry (.str name) x r')) _
          rcases hrest with ⟨e, he, h1⟩ | ⟨h1, h2⟩ | ⟨w, w', h1, h2, ht⟩
          · rw [h1]; exact .failed e he
          · rw [h1, h2]; exact .inr (.inl ⟨rfl, rfl⟩)
          · rw [h1, h2]
            refine .inr (.inr ⟨_, _, rfl, rfl, ?_⟩)
            cases x with
            | none => exact ht
            | some x => exact .drop hf hf' ht

end

theorem lookup_of_mem_nodup {l : List (Str × Field)} (hnd : (l.map (·.1)).Nodup) : ∀ e ∈ l, l.lookup e.1 = some e.2 := by
  induction l with
  | nil => intro e he; cases he
  | cons a l ih =>
    intro e he
    have hn := List.nodup_cons.1 hnd
    rcases List.mem_cons.1 he with rfl | he
    · simp [List.lookup]
    · have hne : e.1 ≠ a.1 := fun h => hn.1 (List.mem_map.2 ⟨e, he, h⟩)
      rw [List.lookup_cons, beq_false_of_ne hne]
      exact ih hn.2 e he

theorem interpolate_narrowed {env : Env} {t : Templates} {R : Field → Field → Prop} (hR : Narrows env R) : ∀ (n : Nat) (f f' : Field) (v : Val), R f f' →
    Narrowed (Trim env f f') (interpolate env t n f v) (interpolate env t n f' v)
  | 0, _, _, _, _ => .failed _ (by intro h; cases h)
  | n + 1, f, f', v, hff => by
    have ih := interpolate_narrowed (t := t) hR n
    have hu : ∀ i v, ∃ e, e ≠ .undefinedParameter ∧ interpolate env t n (.undef i) v = .error e := by
      intro i v
      cases n with
      | zero => exact ⟨_, (by intro h; cases h), rfl⟩
      | succ n => exact ⟨_, (by intro h; cases h), rfl⟩
    show Narrowed _ (interpolateStep _ _ _ _ _) (interpolateStep _ _ _ _ _)
    have container : (∀ c k, f ≠ .leaf c k) → (∀ i, f ≠ .undef i) → (∀ c k, f' ≠ .leaf c k) → (∀ i, f' ≠ .undef i) →
        (∀ x, Narrowed (Trim env f f') (interpolateBody env (interpolate env t n) f x) (interpolateBody env (interpolate env t n) f' x)) →
        Narrowed (Trim env f f') (interpolateStep env t (interpolate env t n) f v) (interpolateStep env t (interpolate env t n) f' v) := by
      intro h1 h2 h3 h4 hb
      rw [step_container h1 h2, step_container h3 h4]
      by_cases hn : v.isNone = true
      · rw [if_pos hn, if_pos hn]; exact .inr (.inr ⟨_, _, rfl, rfl, .null ..⟩)
      · rw [if_neg hn, if_neg hn]
        exact .bind (.refl (R := Eq) (fun _ => rfl) _) fun x x' hx => hx ▸ hb x
    cases hR f f' hff with
    | same => exact .refl (fun w => .same f w) _
    | sequence _ hc =>
      refine container (by intro _ _ h; cases h) (by intro _ h; cases h) (by intro _ _ h; cases h) (by intro _ h; cases h) fun x => ?_
      cases x <;> first
        | exact .failed _ (by intro h; cases h)
        | exact .map (items_narrowed ih hc _) fun _ _ => .sequence
    | tuple _ hl hc =>
      refine container (by intro _ _ h; cases h) (by intro _ h; cases h) (by intro _ _ h; cases h) (by intro _ h; cases h) fun x => ?_
      cases x <;> first
        | exact .failed _ (by intro h; cases h)
        | exact .map (slots_narrowed ih _ hl hc) fun _ _ => .tuple
    | map _ _ hc =>
      refine container (by intro _ _ h; cases h) (by intro _ h; cases h) (by intro _ _ h; cases h) (by intro _ h; cases h) fun x => ?_
      cases x <;> first
        | exact .failed _ (by intro h; cases h)
        | exact .map (entries_narrowed ih hc _) fun _ _ => .map
    | «structure» _ hm =>
      refine container (by intro _ _ h; cases h) (by intro _ h; cases h) (by intro _ _ h; cases h) (by intro _ h; cases h) fun x => ?_
      cases x <;> first
        | exact .failed _ (by intro h; cases h)
        | skip
      refine .map (members_narrowed ih hu ?_ hm.nodup hm.sub (lookup_of_mem_nodup hm.nodup) (lookup_of_mem_nodup (hm.sub.nodup hm.nodup)) ?_)
        fun _ _ => .structure
      · intro name f f' h1 h2 g c h3 h4
        obtain ⟨g', _, h5, _, h6, _⟩ := hm.kept name f f' h1 h2 g c h3 h4
        exact ⟨g', h5, h6⟩
      · intro e _ hne
        rw [List.lookup_eq_none_iff]
        intro x hx
        have : x.1 ≠ e.1 := fun h => hne (h ▸ List.mem_map_of_mem (f := (·.1)) hx)
        simpa using fun h => this h.symm

/-- C100: what a schema interpolates, it interpolates without some of its members too, to the corresponding part; and the parameters it lacks
are lacking too. -/
theorem C100_narrow {env : Env} {t : Templates} {R : Field → Field → Prop} (hR : Narrows env R) (n : Nat) {f f' : Field} (v : Val) (hff : R f f') :
    (∀ w, interpolate env t n f v = .ok w → ∃ w', interpolate env t n f' v = .ok w' ∧ ∀ x, Trim env f f' w x ↔ x = w') ∧
    (interpolate env t n f v = .error .undefinedParameter → interpolate env t n f' v = .error .undefinedParameter) := by
  rcases interpolate_narrowed (t := t) hR n f f' v hff with ⟨e, he, hp⟩ | ⟨hp, hq⟩ | ⟨w, w', hp, hq, hw⟩
  · rw [hp]
    exact ⟨fun w hw => (by cases hw), fun hu => absurd (Except.error.inj hu) he⟩
  · rw [hp, hq]
    exact ⟨fun w hw => (by cases hw), fun _ => rfl⟩
  · rw [hp, hq]
    refine ⟨fun x hx => ?_, fun hu => (by cases hu)⟩
    cases hx
    exact ⟨w', rfl, fun x => ⟨fun hx => C76_unique hx hw, fun e => e ▸ hw⟩⟩

/-- C100: in particular with the schema `filter` gives. -/
theorem C100_filter {env : Env} {t : Templates} (o : Outer) (params : Params) (k : Nat) (all : Bool) {f f' : Field}
    (hb : Everywhere env (Built env) f) (hfit : Everywhere env (FilterFits env o params) f)
    (hfil : filter env o params k all f = .ok (.new f')) (n : Nat) {v w : Val} (h : interpolate env t n f v = .ok w) :
    ∃ w', interpolate env t n f' v = .ok w' ∧ ∀ x, Trim env f f' w x ↔ x = w' :=
  (C100_narrow (filter_narrows env o params) n v (.inr ⟨k, all, hfil, hb, hfit⟩)).1 w h

/-! ### A case -/

/-- Contacts with a reference for a number and one for a remark. -/
def Ex.agendaSubject : Val :=
  .dict [(.str c!"remark", .str c!"${b}"), (.str c!"contacts", .list [.dict [(.str c!"phone", .str c!"${a}"), (.str c!"name", .str c!"jo")]])]

example : interpolate Ex.env Ex.engine 5 Ex.agenda Ex.agendaSubject =
    .ok (.dict [(.str c!"contacts", .list [.dict [(.str c!"name", .str c!"jo"), (.str c!"phone", .int 5)]])]) ∧
    interpolate Ex.env Ex.engine 5 Ex.agenda' Ex.agendaSubject = .ok Ex.agendaValue' := ⟨rfl, rfl⟩

example : ∃ w', interpolate Ex.env Ex.engine 5 Ex.agenda' Ex.agendaSubject = .ok w' ∧
    ∀ x, Trim Ex.env Ex.agenda Ex.agenda' (.dict [(.str c!"contacts", .list [.dict [(.str c!"name", .str c!"jo"), (.str c!"phone", .int 5)]])]) x ↔ x = w' :=
  C100_filter Ex.outer [(c!"required", .bool true)] 5 true Ex.agenda_built.1 Ex.agenda_built.2 Ex.agenda_filtered 5 rfl

/-- C100: a subject refused because of one member may be interpolated without it. -/
theorem C100_narrow_more : ∃ (v w' : Val) (e : Exn), interpolate Ex.env Ex.engine 5 Ex.agenda v = .error e ∧ interpolate Ex.env Ex.engine 5 Ex.agenda' v = .ok w' :=
  ⟨.dict [(.str c!"remark", .list []), (.str c!"contacts", .list [])], .dict [(.str c!"contacts", .list [])], .py .valueError, rfl, rfl⟩

end Scheme
