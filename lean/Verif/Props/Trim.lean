import Verif.Spec.Trim
import Verif.Lemmas.Accept
import Verif.Props.Locality
import Verif.Props.Filter
import Verif.Props.Access
import Verif.Props.Edit

/-! C76: a schema without some of its members. -/

namespace Scheme

mutual
/-- Nothing is taken out when no member is left out. -/
theorem Trim.eq {env : Env} {f v v'} : (h : Trim env f f v v') → v' = v
  | .same .. => rfl
  | .null .. => rfl
  | .sequence h => by rw [h.eq]
  | .tupleOfList h => by rw [h.eq]
  | .tuple h => by rw [h.eq]
  | .map h => by rw [h.eq]
  | .structure h => by rw [h.eq]
theorem TrimItems.eq {env : Env} {f l l'} : (h : TrimItems env f f l l') → l' = l
  | .nil => rfl
  | .cons a b h t => by cases a.symm.trans b; rw [h.eq, t.eq]
theorem TrimSlots.eq {env : Env} {fs l l'} : (h : TrimSlots env fs fs l l') → l' = l
  | .nil => rfl
  | .cons a b h t => by cases a.symm.trans b; rw [h.eq, t.eq]
theorem TrimValues.eq {env : Env} {f l l'} : (h : TrimValues env f f l l') → l' = l
  | .nil => rfl
  | .cons a b h t => by cases a.symm.trans b; rw [h.eq, t.eq]
theorem TrimEntries.eq {env : Env} {fs l l'} : (h : TrimEntries env fs fs l l') → l' = l
  | .nil => rfl
  | .drop a b _ => by cases a.symm.trans b
  | .keep a b c d h t => by cases a.symm.trans b; cases c.symm.trans d; rw [h.eq, t.eq]
  | .other _ t => by rw [t.eq]
end

mutual
/-- Only what is in dicts and lists changes. -/
theorem Trim.hashable {env : Env} {f f' v v'} : (h : Trim env f f' v v') → Scheme.hashable v = true → v' = v
  | .same .., _ => rfl
  | .null .., _ => rfl
  | .sequence _, hv => by simp [Scheme.hashable] at hv
  | .tupleOfList _, hv => by simp [Scheme.hashable] at hv
  | .map _, hv => by simp [Scheme.hashable] at hv
  | .structure _, hv => by simp [Scheme.hashable] at hv
  | .tuple h, hv => by rw [h.hashable (by simpa [Scheme.hashable] using hv)]
theorem TrimSlots.hashable {env : Env} {fs fs' l l'} : (h : TrimSlots env fs fs' l l') → Scheme.hashableL l = true → l' = l
  | .nil, _ => rfl
  | .cons _ _ h t, hv => by
    simp only [Scheme.hashableL, Bool.and_eq_true] at hv
    rw [h.hashable hv.1, t.hashable hv.2]
end

theorem Trim.none {env : Env} {f f' v v'} (h : Trim env f f' v v') : v = .none ↔ v' = .none := by
  cases h <;> simp

mutual
/-- C76. There is at most one such value. -/
theorem C76_unique {env : Env} {f f' : Field} {v a b : Val} : (h : Trim env f f' v a) → Trim env f f' v b → a = b
  | .same .., h2 => h2.eq.symm
  | .null .., h2 => (h2.none.1 rfl).symm
  | .sequence h, h2 => by
    cases h2 with
    | same => rw [h.eq]
    | sequence h2 => rw [h.unique h2]
  | .tupleOfList h, h2 => by
    cases h2 with
    | same => rw [h.eq]
    | tupleOfList h2 => rw [h.unique h2]
  | .tuple h, h2 => by
    cases h2 with
    | same => rw [h.eq]
    | tuple h2 => rw [h.unique h2]
  | .map h, h2 => by
    cases h2 with
    | same => rw [h.eq]
    | map h2 => rw [h.unique h2]
  | .structure h, h2 => by
    cases h2 with
    | same => rw [h.eq]
    | «structure» h2 => rw [h.unique h2]
theorem TrimItems.unique {env : Env} {f f' v a b} : (h : TrimItems env f f' v a) → TrimItems env f f' v b → a = b
  | .nil, h2 => by cases h2; rfl
  | .cons p q h t, .cons p' q' h' t' => by
    cases p.symm.trans p'; cases q.symm.trans q'; rw [C76_unique h h', t.unique t']
theorem TrimSlots.unique {env : Env} {f f' v a b} : (h : TrimSlots env f f' v a) → TrimSlots env f f' v b → a = b
  | .nil, h2 => by cases h2; rfl
  | .cons p q h t, .cons p' q' h' t' => by
    cases p.symm.trans p'; cases q.symm.trans q'; rw [C76_unique h h', t.unique t']
theorem TrimValues.unique {env : Env} {f f' v a b} : (h : TrimValues env f f' v a) → TrimValues env f f' v b → a = b
  | .nil, h2 => by cases h2; rfl
  | .cons p q h t, .cons p' q' h' t' => by
    cases p.symm.trans p'; cases q.symm.trans q'; rw [C76_unique h h', t.unique t']
theorem TrimEntries.unique {env : Env} {f f' v a b} : (h : TrimEntries env f f' v a) → TrimEntries env f f' v b → a = b
  | .nil, h2 => by cases h2; rfl
  | .drop p q t, h2 => by
    cases h2 with
    | drop _ _ t' => exact t.unique t'
    | keep _ q' => rw [q] at q'; cases q'
    | other h => rw [h _ rfl] at p; cases p
  | .keep p q r s h t, h2 => by
    cases h2 with
    | drop _ q' => rw [q] at q'; cases q'
    | keep p' q' r' s' h' t' =>
      cases p.symm.trans p'; cases q.symm.trans q'; cases r.symm.trans r'; cases s.symm.trans s'
      rw [C76_unique h h', t.unique t']
    | other h => rw [h _ rfl] at p; cases p
  | .other h t, h2 => by
    cases h2 with
    | drop p => rw [h _ rfl] at p; cases p
    | keep p => rw [h _ rfl] at p; cases p
    | other _ t' => rw [t.unique t']
end

/-! ### Items, values, entries -/

theorem TrimItems.hashable {env : Env} {f f' : Field} {l l' : List Val} (h : TrimItems env f f' l l')
    (hl : ∀ r ∈ l, Scheme.hashable r = true) : l' = l := by
  match h with
  | .nil => rfl
  | .cons _ _ h t =>
    rw [h.hashable (hl _ (List.mem_cons_self ..)), t.hashable fun r hr => hl r (List.mem_cons_of_mem _ hr)]

theorem TrimItems.length {env : Env} {f f' l l'} (h : TrimItems env f f' l l') : l'.length = l.length := by
  match h with
  | .nil => rfl
  | .cons _ _ _ t => simp [t.length]

theorem TrimItems.at {env : Env} {f f' : Field} {l l'} (h : TrimItems env f f' l l') {i : Nat} {x' : Val} (hx : l'[i]? = some x') :
    ∃ x g g', l[i]? = some x ∧ resolve env f = some g ∧ resolve env f' = some g' ∧ Trim env g g' x x' := by
  match h, i with
  | .cons a b h t, 0 => simp only [List.getElem?_cons_zero, Option.some.injEq] at hx; subst hx; exact ⟨_, _, _, rfl, a, b, h⟩
  | .cons a b h t, i + 1 => exact t.at hx

theorem TrimItems.build {env : Env} {f f' g g' : Field} (hg : resolve env f = some g) (hg' : resolve env f' = some g') :
    ∀ {l l' : List Val}, l'.length = l.length → (∀ (i : Nat) x x', l[i]? = some x → l'[i]? = some x' → Trim env g g' x x') →
      TrimItems env f f' l l'
  | [], [], _, _ => .nil
  | _ :: _, _ :: _, hl, h => .cons hg hg' (h 0 _ _ rfl rfl)
      (TrimItems.build hg hg' (by simpa using hl) fun i x x' a b => h (i + 1) x x' a b)

theorem TrimSlots.length {env : Env} {fs fs' l l'} (h : TrimSlots env fs fs' l l') :
    l.length = fs.length ∧ l'.length = fs'.length ∧ l'.length = l.length := by
  match h with
  | .nil => exact ⟨rfl, rfl, rfl⟩
  | .cons _ _ _ t => obtain ⟨a, b, c⟩ := t.length; simp [a, b]; omega

theorem TrimSlots.at {env : Env} {fs fs' : List Field} {l l'} (h : TrimSlots env fs fs' l l') {i : Nat} {x' : Val} (hx : l'[i]? = some x') :
    ∃ x f f' g g', l[i]? = some x ∧ fs[i]? = some f ∧ fs'[i]? = some f' ∧ resolve env f = some g ∧ resolve env f' = some g' ∧
      Trim env g g' x x' := by
  match h, i with
  | .cons a b h t, 0 =>
    simp only [List.getElem?_cons_zero, Option.some.injEq] at hx; subst hx; exact ⟨_, _, _, _, _, rfl, rfl, rfl, a, b, h⟩
  | .cons a b h t, i + 1 => exact t.at hx

theorem TrimSlots.build {env : Env} : ∀ {fs fs' : List Field} {l l' : List Val}, l.length = fs.length → fs'.length = fs.length →
    l'.length = l.length → (∀ (i : Nat) f f' x x', fs[i]? = some f → fs'[i]? = some f' → l[i]? = some x → l'[i]? = some x' →
      ∃ g g', resolve env f = some g ∧ resolve env f' = some g' ∧ Trim env g g' x x') → TrimSlots env fs fs' l l'
  | [], [], [], [], _, _, _, _ => .nil
  | f :: fs, f' :: fs', x :: l, x' :: l', h1, h2, h3, h => by
    obtain ⟨g, g', a, b, c⟩ := h 0 _ _ _ _ rfl rfl rfl rfl
    exact .cons a b c (TrimSlots.build (by simpa using h1) (by simpa using h2) (by simpa using h3)
      fun i f f' x x' p q r s => h (i + 1) f f' x x' p q r s)

theorem TrimValues.keys {env : Env} {f f' l l'} (h : TrimValues env f f' l l') : l'.map (·.1) = l.map (·.1) := by
  match h with
  | .nil => rfl
  | .cons _ _ _ t => simp [t.keys]

theorem TrimValues.at {env : Env} {f f' : Field} {l l'} (h : TrimValues env f f' l l') {i : Nat} {k x' : Val} (hx : l'[i]? = some (k, x')) :
    ∃ x g g', l[i]? = some (k, x) ∧ resolve env f = some g ∧ resolve env f' = some g' ∧ Trim env g g' x x' := by
  match h, i with
  | .cons a b h t, 0 =>
    simp only [List.getElem?_cons_zero, Option.some.injEq, Prod.mk.injEq] at hx
    obtain ⟨rfl, rfl⟩ := hx; exact ⟨_, _, _, rfl, a, b, h⟩
  | .cons a b h t, i + 1 => exact t.at hx

theorem TrimValues.build {env : Env} {f f' g g' : Field} (hg : resolve env f = some g) (hg' : resolve env f' = some g') :
    ∀ {l l' : List (Val × Val)}, l'.length = l.length →
      (∀ (i : Nat) e e', l[i]? = some e → l'[i]? = some e' → e'.1 = e.1 ∧ Trim env g g' e.2 e'.2) → TrimValues env f f' l l'
  | [], [], _, _ => .nil
  | (k, v) :: _, (k', v') :: _, hl, h => by
    obtain ⟨rfl, a⟩ := h 0 _ _ rfl rfl
    exact .cons hg hg' a (TrimValues.build hg hg' (by simpa using hl) fun i x x' a b => h (i + 1) x x' a b)

theorem TrimValues.set {env : Env} {f f' g g' : Field} (hg : resolve env f = some g) (hg' : resolve env f' = some g')
    {l l' : List (Val × Val)} (h : TrimValues env f f' l l') {k v v' : Val} (hv : Trim env g g' v v') :
    TrimValues env f f' (dictSet l k v) (dictSet l' k v') := by
  match h with
  | .nil => exact .cons hg hg' hv .nil
  | .cons (k := k1) (d := d1) (d' := d1') a b c t =>
    unfold dictSet
    cases pyEq k k1
    · exact .cons a b c (TrimValues.set hg hg' t hv)
    · exact .cons hg hg' hv t

theorem TrimValues.fold {env : Env} {f f' : Field} {es es' acc acc' : List (Val × Val)} (h : TrimValues env f f' es es')
    (ha : TrimValues env f f' acc acc') :
    TrimValues env f f' (es.foldl (fun a e => dictSet a e.1 e.2) acc) (es'.foldl (fun a e => dictSet a e.1 e.2) acc') := by
  induction es generalizing es' acc acc' with
  | nil => cases h; exact ha
  | cons e es ih => cases h with
    | cons a b c t =>
      rename_i k _ _ _
      have := ih t (TrimValues.set (k := k) a b ha c)
      exact this

theorem TrimEntries.given {env : Env} {defn defn' : List (Str × Field)} {d d' : List (Val × Val)}
    (h : TrimEntries env defn defn' d d') {name : Str} {f f' g g' : Field} (hf : defn.lookup name = some f)
    (hf' : defn'.lookup name = some f') (hg : resolve env f = some g) (hg' : resolve env f' = some g') :
    (Scheme.given d name = none ∧ Scheme.given d' name = none) ∨
    ∃ v v', Scheme.given d name = some v ∧ Scheme.given d' name = some v' ∧ Trim env g g' v v' := by
  match h with
  | .nil => exact .inl ⟨rfl, rfl⟩
  | .drop (name := nm) (d := r) (v := v) p q t =>
    have hne : nm ≠ name := by rintro rfl; rw [hf'] at q; cases q
    have : Scheme.given ((.str nm, v) :: r) name = Scheme.given r name := by
      unfold Scheme.given; rw [List.find?_cons_of_neg (by simpa using hne)]
    rw [this]; exact t.given hf hf' hg hg'
  | .keep (name := nm) (d := r) (d' := r') (v := v) (v' := v') p q a b c t =>
    by_cases hne : nm = name
    · subst hne
      cases hf.symm.trans p; cases hf'.symm.trans q; cases hg.symm.trans a; cases hg'.symm.trans b
      exact .inr ⟨v, v', by simp [Scheme.given], by simp [Scheme.given], c⟩
    · have e1 : ∀ (r : List (Val × Val)) v, Scheme.given ((.str nm, v) :: r) name = Scheme.given r name := by
        intro r v; unfold Scheme.given; rw [List.find?_cons_of_neg (by simpa using hne)]
      rw [e1, e1]; exact t.given hf hf' hg hg'
  | .other (k := k) (d := r) (d' := r') (v := v) p t =>
    have e1 : ∀ (r : List (Val × Val)), Scheme.given ((k, v) :: r) name = Scheme.given r name := by
      intro r
      unfold Scheme.given
      rw [List.find?_cons_of_neg]
      cases k with
      | str s =>
        have : s ≠ name := by rintro rfl; rw [p _ rfl] at hf; cases hf
        simpa using this
      | _ => simp
    rw [e1, e1]; exact t.given hf hf' hg hg'

theorem TrimEntries.strict {env : Env} {defn defn' : List (Str × Field)} {d d' : List (Val × Val)}
    (h : TrimEntries env defn defn' d d') (hs : ∀ e ∈ d, ∃ name ∈ defn.map (·.1), e.1 = .str name) :
    ∀ e ∈ d', ∃ name ∈ defn'.map (·.1), e.1 = .str name := by
  match h with
  | .nil => intro e he; cases he
  | .drop p q t => exact t.strict fun e he => hs e (List.mem_cons_of_mem _ he)
  | .keep (name := nm) p q a b c t =>
    intro e he
    rcases List.mem_cons.1 he with rfl | he
    · exact ⟨nm, lookup_isSome.1 (by rw [q]; rfl), rfl⟩
    · exact t.strict (fun e he => hs e (List.mem_cons_of_mem _ he)) e he
  | .other (k := k) (v := v) p t =>
    obtain ⟨name, hn, e⟩ := hs (k, v) (List.mem_cons_self ..)
    have := lookup_isSome.2 hn
    rw [p name e] at this; cases this

/-! ### Processing -/

/-- One member that both structures have. -/
theorem narrow_slot {env : Env} {R : Field → Field → Prop} {n : Nat} {ph : Phase} {ser : Bool}
    (ih : ∀ f f' v v' w a a', R f f' → process env n f v ph ser a = .ok w → Trim env f f' v v' →
      ∃ w', process env n f' v' ph ser a' = .ok w' ∧ Trim env f f' w w')
    {defn defn' : List (Str × Field)} (hm : NarrowMembers env R defn defn') {d d' : List (Val × Val)}
    (hd : TrimEntries env defn defn' d d') {a a' : List Str} {name : Str} {f' : Field} (hf' : defn'.lookup name = some f')
    {s : Option Val} (h : SlotOk env n defn d ph ser false a name s) :
    ∃ s', SlotOk env n defn' d' ph ser false a' name s' ∧
      ((s = none ∧ s' = none) ∨ ∃ w w' f g g', s = some w ∧ s' = some w' ∧ defn.lookup name = some f ∧ resolve env f = some g ∧
        resolve env f' = some g' ∧ Trim env g g' w w') := by
  obtain ⟨g, c, ⟨f, hf, hg, hc⟩, hmiss, hval⟩ := h
  obtain ⟨g', c', hg', hc', hr, k1, k2, k3, k4⟩ := hm.kept name f f' hf hf' g c hg hc
  have hdec : Declares env defn' name g' c' := ⟨f', hf', hg', hc'⟩
  -- what the member is given
  have hin : (memberInput c (given d name) ph false = none ∧ memberInput c' (given d' name) ph false = none) ∨
      ∃ v v', memberInput c (given d name) ph false = some v ∧ memberInput c' (given d' name) ph false = some v' ∧
        Trim env g g' v v' := by
    rcases hd.given hf hf' hg hg' with ⟨e1, e2⟩ | ⟨v, v', e1, e2, ht⟩
    · rw [e1, e2]
      cases ph with
      | outbound => exact .inl ⟨rfl, rfl⟩
      | inbound =>
        have hmi : ∀ c : Common, c.default ≠ .none → memberInput c none .inbound false = some c.default := by
          intro c hc
          unfold memberInput
          simp only [Bool.false_eq_true, if_false]
        by_cases hdn : c.default = .none
        · exact .inl ⟨by simp [memberInput, hdn], by simp [memberInput, k1, hdn]⟩
        · exact .inr ⟨_, _, hmi c hdn, by rw [hmi c' (k1 ▸ hdn), k1], k4⟩
    · rw [e1, e2]
      by_cases hv : v = .none
      · have hv' := ht.none.1 hv
        subst hv hv'
        unfold memberInput
        rw [k2]
        cases c.ignoreNull
        · exact .inr ⟨_, _, rfl, rfl, ht⟩
        · exact .inl ⟨rfl, rfl⟩
      · have hv' : v' ≠ .none := fun e => hv (ht.none.2 e)
        have hmi : ∀ (c : Common) x, x ≠ .none → memberInput c (some x) ph false = some x := by
          intro c x hx
          unfold memberInput
          cases x <;> first | rfl | exact absurd rfl hx
        exact .inr ⟨v, v', hmi c v hv, hmi c' v' hv', ht⟩
  have hgiven : given d' name = none → given d name = none := by
    rcases hd.given hf hf' hg hg' with ⟨e1, e2⟩ | ⟨v, v', e1, e2, ht⟩
    · exact fun _ => e1
    · rw [e2]; intro h; cases h
  have hmiss' : ¬ memberMissing c' (given d' name) ph false := by
    rintro ⟨m1, m2, m3, m4⟩
    refine hmiss ⟨hgiven m1, m2, k3 ▸ m3, ?_⟩
    rcases hin with ⟨e, _⟩ | ⟨v, v', e1, e2, _⟩
    · exact e
    · rw [e2] at m4; cases m4
  rcases hval with ⟨h1, rfl⟩ | ⟨v, w, h1, rfl, hp⟩
  · rcases hin with ⟨e, e'⟩ | ⟨v, v', e1, e2, _⟩
    · exact ⟨none, ⟨g', c', hdec, hmiss', .inl ⟨e', rfl⟩⟩, .inl ⟨rfl, rfl⟩⟩
    · rw [h1] at e1; cases e1
  · rcases hin with ⟨e, e'⟩ | ⟨v0, v', e1, e2, ht⟩
    · rw [h1] at e; cases e
    · rw [h1] at e1; cases e1
      obtain ⟨w', hp', ht'⟩ := ih g g' v v' w _ (a' ++ ['.' :: name]) hr hp ht
      exact ⟨some w', ⟨g', c', hdec, hmiss', .inr ⟨v', w', e2, rfl, hp'⟩⟩, .inr ⟨w, w', f, g, g', rfl, rfl, hf, hg, hg', ht'⟩⟩

/-- All of them, and the results of the others left out. -/
theorem narrow_slots {env : Env} {defn defn' : List (Str × Field)} {P : Str → Option Val → Prop} {L' L : List Str}
    (hsub : L'.Sublist L) (hnd : L.Nodup) (hin : ∀ x ∈ L, x ∈ L' ↔ (defn'.lookup x).isSome = true)
    (hall : ∀ x ∈ L, (defn.lookup x).isSome = true) (slots : List (Str × Option Val)) (h1 : slots.map (·.1) = L)
    (h2 : ∀ x ∈ slots, ∀ f', defn'.lookup x.1 = some f' → ∃ s', P x.1 s' ∧
      ((x.2 = none ∧ s' = none) ∨ ∃ w w' f g g', x.2 = some w ∧ s' = some w' ∧ defn.lookup x.1 = some f ∧ resolve env f = some g ∧
        resolve env f' = some g' ∧ Trim env g g' w w')) :
    ∃ slots' : List (Str × Option Val), slots'.map (·.1) = L' ∧ (∀ x ∈ slots', P x.1 x.2) ∧
      TrimEntries env defn defn' (slotDict slots) (slotDict slots') := by
  induction hsub generalizing slots with
  | slnil => cases slots with
    | nil => exact ⟨[], rfl, fun _ h => (nomatch h), .nil⟩
    | cons a r => cases h1
  | @cons L1 L2 a hs ih =>
    cases slots with
    | nil => cases h1
    | cons x r =>
      obtain ⟨nm, s⟩ := x
      simp only [List.map_cons, List.cons.injEq] at h1
      obtain ⟨rfl, h1⟩ := h1
      obtain ⟨hni, hnd⟩ := List.nodup_cons.1 hnd
      obtain ⟨slots', e1, e2, e3⟩ := ih hnd (fun x hx => hin x (List.mem_cons_of_mem _ hx))
        (fun x hx => hall x (List.mem_cons_of_mem _ hx)) r h1 (fun x hx => h2 x (List.mem_cons_of_mem _ hx))
      refine ⟨slots', e1, e2, ?_⟩
      cases s with
      | none => exact e3
      | some w =>
        obtain ⟨f, hf⟩ := Option.isSome_iff_exists.1 (hall nm (List.mem_cons_self ..))
        have hno : defn'.lookup nm = none := by
          cases h : defn'.lookup nm with
          | none => rfl
          | some f' => exact absurd (hs.subset ((hin nm (List.mem_cons_self ..)).2 (by rw [h]; rfl))) hni
        exact .drop hf hno e3
  | @cons_cons L1 L2 a hs ih =>
    cases slots with
    | nil => cases h1
    | cons x r =>
      obtain ⟨nm, s⟩ := x
      simp only [List.map_cons, List.cons.injEq] at h1
      obtain ⟨rfl, h1⟩ := h1
      obtain ⟨hni, hnd⟩ := List.nodup_cons.1 hnd
      obtain ⟨slots', e1, e2, e3⟩ := ih hnd (fun x hx => by
          rw [← hin x (List.mem_cons_of_mem _ hx), List.mem_cons]
          exact ⟨.inr, fun h => h.resolve_left (by rintro rfl; exact hni hx)⟩)
        (fun x hx => hall x (List.mem_cons_of_mem _ hx)) r h1 (fun x hx => h2 x (List.mem_cons_of_mem _ hx))
      obtain ⟨f', hf'⟩ := Option.isSome_iff_exists.1 ((hin nm (List.mem_cons_self ..)).1 (List.mem_cons_self ..))
      obtain ⟨s', hp, hs'⟩ := h2 _ (List.mem_cons_self ..) f' hf'
      refine ⟨(nm, s') :: slots', by simp [e1], fun x hx => ?_, ?_⟩
      · rcases List.mem_cons.1 hx with rfl | hx
        · exact hp
        · exact e2 x hx
      · rcases hs' with ⟨k1, k2⟩ | ⟨w, w', f, g, g', k1, k2, k3, k4, k5, k6⟩
        · dsimp only at k1; subst k1 k2; exact e3
        · dsimp only at k1; subst k1 k2; exact .keep k3 hf' k4 k5 k6 e3

theorem sameKeys_ok {env : Env} {n : Nat} {ph : Phase} {ser : Bool} {a a' : List Str} {key key' : Option Field} (h : SameKeys env key key')
    {k k1 : Val} (hk : KeyOk env n ph ser a key k k1) : KeyOk env n ph ser a' key' k k1 := by
  cases hk with
  | text s =>
    cases key' with
    | none => exact .text s
    | some _ => exact h.elim
  | field h1 h2 =>
    cases key' with
    | none => exact h.elim
    | some k' =>
      refine .field h1 ?_
      rw [← (show Same env _ k' from h).process]
      exact (C71_accepts ..).1 h2

theorem pick_list {α β : Type} {l : List α} {Q : Nat → α → β → Prop} (h : ∀ i x, l[i]? = some x → ∃ y, Q i x y) :
    ∃ l' : List β, l'.length = l.length ∧ ∀ i x, l[i]? = some x → ∃ y, l'[i]? = some y ∧ Q i x y := by
  induction l generalizing Q with
  | nil => exact ⟨[], rfl, fun i x h => by simp at h⟩
  | cons a r ih =>
    obtain ⟨y, hy⟩ := h 0 a rfl
    obtain ⟨l', e1, e2⟩ := ih (Q := fun i x y => Q (i + 1) x y) fun i x hx => h (i + 1) x hx
    refine ⟨y :: l', by simp [e1], fun i x hx => ?_⟩
    cases i with
    | zero => cases hx; exact ⟨y, rfl, hy⟩
    | succ i => exact e2 i x hx

/-- C76. What a schema accepts, less the entries of some of its members, is accepted by the schema without these
members, and the result is the same, less the entries of these members: native or serialized, in both directions,
whatever the depth of the members, recursive schemas included. -/
theorem C76_narrow (env : Env) (R : Field → Field → Prop) (hR : Narrows env R) (n : Nat) (f f' : Field) (v v' w : Val)
    (ph : Phase) (ser : Bool) (anc anc' : List Str) (hff : R f f') (h : process env n f v ph ser anc = .ok w)
    (ht : Trim env f f' v v') : ∃ w', process env n f' v' ph ser anc' = .ok w' ∧ Trim env f f' w w' := by
  induction n generalizing f f' v v' w anc anc' with
  | zero => cases h
  | succ n ih =>
    have ih' : ∀ f f' v v' w a a', R f f' → process env n f v ph ser a = .ok w → Trim env f f' v v' →
        ∃ w', process env n f' v' ph ser a' = .ok w' ∧ Trim env f f' w w' := fun f f' v v' w a a' hr h ht => ih f f' v v' w a a' hr h ht
    clear ih
    by_cases hne : f = f'
    · subst hne; cases ht.eq; exact ⟨w, (C71_accepts ..).1 h, .same ..⟩
    cases hR f f' hff with
    | same => exact absurd rfl hne
    | sequence hc hi =>
      rename_i c c' item item' mn mx u
      rw [seq_ok hc.pre] at h
      rcases h with ⟨rfl, rfl, h3⟩ | ⟨l, rs, rfl, rfl, h3, h4, h5, h6, h7⟩
      · cases ht.none.1 rfl
        exact ⟨.none, (seq_ok hc.pre').2 (.inl ⟨rfl, rfl, hc.nonnull.trans h3⟩), .null ..⟩
      · cases ht with
        | same => exact absurd rfl hne
        | sequence hl =>
          rename_i l'
          obtain ⟨rs', k1, k2⟩ : ∃ rs' : List Val, rs'.length = l'.length ∧ ∀ i x', l'[i]? = some x' → ∃ r r' g g', rs[i]? = some r ∧
              rs'[i]? = some r' ∧ resolve env item = some g ∧ resolve env item' = some g' ∧ Trim env g g' r r' ∧
              process env n g' x' ph ser (ancOr (.sequence c' item' mn mx u) anc' ++ [idxStep i]) = .ok r' := by
            refine (pick_list (Q := fun i x' r' => ∃ r g g', rs[i]? = some r ∧ resolve env item = some g ∧ resolve env item' = some g' ∧
              Trim env g g' r r' ∧ process env n g' x' ph ser (ancOr (.sequence c' item' mn mx u) anc' ++ [idxStep i]) = .ok r')
              fun i x' hx' => ?_).imp fun rs' h => ⟨h.1, fun i x' hx' => ?_⟩
            rotate_left
            · obtain ⟨r', a, r, g, g', b1, b2, b3, b4, b5⟩ := h.2 i x' hx'
              exact ⟨r, r', g, g', b1, a, b2, b3, b4, b5⟩
            obtain ⟨x, g, g', e1, e2, e3, e4⟩ := hl.at hx'
            obtain ⟨r, hr⟩ : ∃ r, rs[i]? = some r := ⟨_, List.getElem?_eq_getElem (by rw [h3]; exact (List.getElem?_eq_some_iff.1 e1).1)⟩
            obtain ⟨g1, hg1, hp⟩ := h6 i x r e1 hr
            cases e2.symm.trans hg1
            obtain ⟨g1', hg1', hrr⟩ := hi g e2
            cases e3.symm.trans hg1'
            obtain ⟨r', hp', ht'⟩ := ih' g g' x x' r _ _ hrr hp e4
            exact ⟨r', r, g, g', hr, e2, e3, ht', hp'⟩
          have hti : TrimItems env item item' rs rs' := by
            cases l' with
            | nil =>
              have : rs' = [] := List.eq_nil_of_length_eq_zero (by simpa using k1)
              have : rs = [] := List.eq_nil_of_length_eq_zero (by rw [h3, ← hl.length]; rfl)
              subst_vars; exact .nil
            | cons x0 t =>
              obtain ⟨r, r', g, g', e1, e2, e3, e4, e5, e6⟩ := k2 0 x0 rfl
              refine TrimItems.build e3 e4 (by rw [k1, hl.length, h3]) fun i y y' hy hy' => ?_
              obtain ⟨x', hx'⟩ : ∃ x', (x0 :: t)[i]? = some x' :=
                ⟨_, List.getElem?_eq_getElem (by rw [← k1]; exact (List.getElem?_eq_some_iff.1 hy').1)⟩
              obtain ⟨r2, r2', g2, g2', i1, i2, i3, i4, i5, i6⟩ := k2 i x' hx'
              cases e3.symm.trans i3; cases e4.symm.trans i4; cases hy.symm.trans i1; cases hy'.symm.trans i2
              exact i5
          refine ⟨.list rs', (seq_ok hc.pre').2 (.inr ⟨l', rs', rfl, rfl, k1, ?_, ?_, ?_, fun hu => ?_⟩), .sequence hti⟩
          · rw [hl.length]; exact h4
          · rw [hl.length]; exact h5
          · intro i x' r' hx' hr'
            obtain ⟨r, r1, g, g', e1, e2, e3, e4, e5, e6⟩ := k2 i x' hx'
            rw [hr'] at e2; cases e2
            exact ⟨g', e4, e6⟩
          · rw [hti.hashable (h7 hu).1]; exact h7 hu
    | tuple hc hlen hi =>
      rename_i c c' fs fs'
      rw [tup_ok hc.pre] at h
      rcases h with ⟨rfl, rfl, h3⟩ | ⟨l, rs, hv, rfl, h3, h4, h5⟩
      · cases ht.none.1 rfl
        exact ⟨.none, (tup_ok hc.pre').2 (.inl ⟨rfl, rfl, hc.nonnull.trans h3⟩), .null ..⟩
      · obtain ⟨l', hv', hl⟩ : ∃ l', (v' = .list l' ∨ v' = .tuple l') ∧ TrimSlots env fs fs' l l' := by
          rcases hv with rfl | rfl
          · cases ht with
            | same => exact absurd rfl hne
            | tupleOfList hl => exact ⟨_, .inl rfl, hl⟩
          · cases ht with
            | same => exact absurd rfl hne
            | tuple hl => exact ⟨_, .inr rfl, hl⟩
        obtain ⟨m1, m2, m3⟩ := hl.length
        obtain ⟨rs', k1, k2⟩ : ∃ rs' : List Val, rs'.length = l'.length ∧ ∀ i x', l'[i]? = some x' → ∃ r r' f f' g g', rs[i]? = some r ∧
            rs'[i]? = some r' ∧ fs[i]? = some f ∧ fs'[i]? = some f' ∧ resolve env f = some g ∧ resolve env f' = some g' ∧
            Trim env g g' r r' ∧ process env n g' x' ph ser (ancOr (.tuple c' fs') anc' ++ [idxStep i]) = .ok r' := by
          refine (pick_list (Q := fun i x' r' => ∃ r f f' g g', rs[i]? = some r ∧ fs[i]? = some f ∧ fs'[i]? = some f' ∧ resolve env f = some g ∧
            resolve env f' = some g' ∧ Trim env g g' r r' ∧ process env n g' x' ph ser (ancOr (.tuple c' fs') anc' ++ [idxStep i]) = .ok r')
            fun i x' hx' => ?_).imp fun rs' h => ⟨h.1, fun i x' hx' => ?_⟩
          rotate_left
          · obtain ⟨r', a, r, f, f', g, g', b1, b2, b3, b4, b5, b6, b7⟩ := h.2 i x' hx'
            exact ⟨r, r', f, f', g, g', b1, a, b2, b3, b4, b5, b6, b7⟩
          obtain ⟨x, f, f', g, g', e1, e2, e3, e4, e5, e6⟩ := hl.at hx'
          obtain ⟨g1, r, hg1, hr, hp⟩ := h5 i f x e2 e1
          cases e4.symm.trans hg1
          obtain ⟨g1', hg1', hrr⟩ := hi i f f' e2 e3 g e4
          cases e5.symm.trans hg1'
          obtain ⟨r', hp', ht'⟩ := ih' g g' x x' r _ _ hrr hp e6
          exact ⟨r', r, f, f', g, g', hr, e2, e3, e4, e5, ht', hp'⟩
        refine ⟨.tuple rs', (tup_ok hc.pre').2 (.inr ⟨l', rs', hv', rfl, m2, k1, ?_⟩), .tuple ?_⟩
        · intro i f' x' hf' hx'
          obtain ⟨r, r', f, f1, g, g', i1, i2, i3, i4, i5, i6, i7, i8⟩ := k2 i x' hx'
          rw [hf'] at i4; cases i4
          exact ⟨g', r', i6, i2, i8⟩
        · refine TrimSlots.build (by omega) hlen (by omega) fun i f f' y y' hf hf' hy hy' => ?_
          obtain ⟨x', hx'⟩ : ∃ x', l'[i]? = some x' :=
            ⟨_, List.getElem?_eq_getElem (by rw [← k1]; exact (List.getElem?_eq_some_iff.1 hy').1)⟩
          obtain ⟨r, r', f1, f1', g, g', i1, i2, i3, i4, i5, i6, i7, i8⟩ := k2 i x' hx'
          cases hf.symm.trans i3; cases hf'.symm.trans i4; cases hy.symm.trans i1; cases hy'.symm.trans i2
          exact ⟨g, g', i5, i6, i7⟩
    | map hc hk hv =>
      rename_i c c' key key' value value' req
      rw [map_ok hc.pre] at h
      rcases h with ⟨rfl, rfl, h3⟩ | ⟨d, es, rfl, h2, h3, out, rfl, rfl, h6⟩
      · cases ht.none.1 rfl
        exact ⟨.none, (map_ok hc.pre').2 (.inl ⟨rfl, rfl, hc.nonnull.trans h3⟩), .null ..⟩
      · cases ht with
        | same => exact absurd rfl hne
        | map hl =>
          rename_i d'
          have hlen : d'.length = d.length := by simpa using congrArg List.length hl.keys
          obtain ⟨es', k1, k2⟩ : ∃ es' : List (Val × Val), es'.length = d'.length ∧ ∀ (i : Nat) (e' : Val × Val), d'[i]? = some e' →
              ∃ k1 r r' g g', es[i]? = some (k1, r) ∧ es'[i]? = some (k1, r') ∧ resolve env value = some g ∧
              resolve env value' = some g' ∧ Trim env g g' r r' ∧
              KeyOk env n ph ser (ancOr (.map c' key' value' req) anc') key' e'.1 k1 ∧ hashable k1 = true ∧
              ∃ st, keyStep env k1 = .ok st ∧
                process env n g' e'.2 ph ser (ancOr (.map c' key' value' req) anc' ++ [st]) = .ok r' := by
            refine (pick_list (Q := fun (i : Nat) (e' o' : Val × Val) => ∃ r g g', es[i]? = some (o'.1, r) ∧ resolve env value = some g ∧ resolve env value' = some g' ∧
              Trim env g g' r o'.2 ∧ KeyOk env n ph ser (ancOr (.map c' key' value' req) anc') key' e'.1 o'.1 ∧ hashable o'.1 = true ∧
              ∃ st, keyStep env o'.1 = .ok st ∧ process env n g' e'.2 ph ser (ancOr (.map c' key' value' req) anc' ++ [st]) = .ok o'.2)
              fun i e' he' => ?_).imp fun rs' h => ⟨h.1, fun i x' hx' => ?_⟩
            rotate_left
            · obtain ⟨r', a, r, g, g', b1, b2, b3, b4, b5, b6, st, b7, b8⟩ := h.2 i x' hx'
              exact ⟨r'.1, r, r'.2, g, g', b1, a, b2, b3, b4, b5, b6, st, b7, b8⟩
            obtain ⟨k, x'⟩ := e'
            obtain ⟨x, g, g', e1, e2, e3, e4⟩ := hl.at he'
            obtain ⟨k1, r, j1, j2, j3, g1, st, j4, j5, j6⟩ := h3 i k x e1
            cases e2.symm.trans j4
            obtain ⟨g1', hg1', hrr⟩ := hv g e2
            cases e3.symm.trans hg1'
            obtain ⟨r', hp', ht'⟩ := ih' g g' x x' r _ _ hrr j6 e4
            exact ⟨(k1, r'), r, g, g', j1, e2, e3, ht', sameKeys_ok hk j2, j3, st, j5, hp'⟩
          have hes : TrimValues env value value' es es' := by
            cases d' with
            | nil =>
              have : es' = [] := List.eq_nil_of_length_eq_zero (by simpa using k1)
              have : es = [] := List.eq_nil_of_length_eq_zero (by rw [h2, ← hlen]; rfl)
              subst_vars; exact .nil
            | cons x0 t =>
              obtain ⟨_, _, _, g, g', _, _, e3, e4, _⟩ := k2 0 x0 rfl
              refine TrimValues.build e3 e4 (by rw [k1, hlen, h2]) fun i y y' hy hy' => ?_
              obtain ⟨x', hx'⟩ : ∃ x', (x0 :: t)[i]? = some x' :=
                ⟨_, List.getElem?_eq_getElem (by rw [← k1]; exact (List.getElem?_eq_some_iff.1 hy').1)⟩
              obtain ⟨kk, r2, r2', g2, g2', i1, i2, i3, i4, i5, i6⟩ := k2 i x' hx'
              cases e3.symm.trans i3; cases e4.symm.trans i4; cases hy.symm.trans i1; cases hy'.symm.trans i2
              exact ⟨rfl, i5⟩
          have hout := hes.fold (acc := []) (acc' := []) .nil
          refine ⟨.dict _, (map_ok hc.pre').2 (.inr ⟨d', es', rfl, k1, ?_, _, rfl, rfl, fun k hkr => ?_⟩), .map hout⟩
          · intro i k x' he'
            obtain ⟨k1, r, r', g, g', i1, i2, i3, i4, i5, i6, i7, st, i8, i9⟩ := k2 i _ he'
            exact ⟨k1, r', i2, i6, i7, g', st, i4, i8, i9⟩
          · obtain ⟨q1, e, q2, q3⟩ := h6 k hkr
            refine ⟨q1, ?_⟩
            have : e.1 ∈ (es.foldl (fun a e => dictSet a e.1 e.2) []).map (·.1) := List.mem_map.2 ⟨e, q2, rfl⟩
            rw [← hout.keys] at this
            obtain ⟨e', he', heq⟩ := List.mem_map.1 this
            exact ⟨e', he', by rw [heq]; exact q3⟩
    | «structure» hc hm =>
      rename_i c c' defn defn' s
      rw [struct_ok hc.pre (by simpa using hm.nodup)] at h
      have hnd' : (defn'.map (·.1)).Nodup := hm.nodup.sublist hm.sub
      rcases h with ⟨rfl, rfl, h3⟩ | ⟨d, rfl, h2, slots, h3, h4, rfl⟩
      · cases ht.none.1 rfl
        exact ⟨.none, (struct_ok hc.pre' (by simpa using hnd')).2 (.inl ⟨rfl, rfl, hc.nonnull.trans h3⟩), .null ..⟩
      · simp only [if_true] at h2 h3
        cases ht with
        | same => exact absurd rfl hne
        | «structure» hd =>
          rename_i d'
          obtain ⟨slots', e1, e2, e3⟩ := narrow_slots (env := env) (defn := defn) (defn' := defn')
            (P := fun name s' => SlotOk env n defn' d' ph ser false (ancOr (.structure c' defn' s []) anc') name s')
            hm.sub hm.nodup (fun x _ => lookup_isSome.symm) (fun x hx => lookup_isSome.2 hx) slots h3
            (fun x hx f' hf' => narrow_slot ih' hm hd hf' (h4 x hx))
          refine ⟨.dict (slotDict slots'), (struct_ok hc.pre' (by simpa using hnd')).2 (.inr ⟨d', rfl, fun hs => ?_, slots', ?_, e2, rfl⟩),
            .structure e3⟩
          · simpa using hd.strict (by simpa using h2 hs)
          · simpa using e1

/-! ### There is such a value -/

theorem given_distinct {d : List (Val × Val)} (h : DistinctKeys d) {name : Str} {x : Val} (hx : (.str name, x) ∈ d) :
    given d name = some x := by
  unfold given
  induction d with
  | nil => cases hx
  | cons e r ih =>
    obtain ⟨h1, h2⟩ := List.pairwise_cons.1 h
    rcases List.mem_cons.1 hx with rfl | hx
    · simp
    · have hne := h1 _ hx
      rw [List.find?_cons_of_neg]
      · exact ih h2 hx
      · obtain ⟨k, y⟩ := e
        cases k with
        | str s =>
          simp only [beq_iff_eq]
          rintro rfl
          simp [pyEq] at hne
        | _ => simp

theorem trim_entries_exist {env : Env} {defn defn' : List (Str × Field)} : ∀ (d : List (Val × Val)),
    (∀ name v f f', (.str name, v) ∈ d → defn.lookup name = some f → defn'.lookup name = some f' →
      ∃ g g' v', resolve env f = some g ∧ resolve env f' = some g' ∧ Trim env g g' v v') →
    ∃ d', TrimEntries env defn defn' d d'
  | [], _ => ⟨[], .nil⟩
  | (k, v) :: r, h => by
    obtain ⟨r', hr'⟩ := trim_entries_exist r fun name v f f' hm => h name v f f' (List.mem_cons_of_mem _ hm)
    by_cases hk : ∀ name, k = .str name → defn.lookup name = none
    · exact ⟨_, .other hk hr'⟩
    · simp only [not_forall] at hk
      obtain ⟨name, rfl, hl⟩ := hk
      obtain ⟨f, hf⟩ := Option.ne_none_iff_exists'.1 hl
      cases hf' : defn'.lookup name with
      | none => exact ⟨r', .drop hf hf' hr'⟩
      | some f' =>
        obtain ⟨g, g', v', a, b, c⟩ := h name v f f' (List.mem_cons_self ..) hf hf'
        exact ⟨_, .keep hf hf' a b c hr'⟩

/-- C76. For every accepted value there is one without the entries of the left-out members (and by `C76_unique` only
one). -/
theorem C76_exists (env : Env) (R : Field → Field → Prop) (hR : Narrows env R) (n : Nat) (f f' : Field) (v w : Val)
    (ph : Phase) (ser : Bool) (anc : List Str) (hff : R f f') (h : process env n f v ph ser anc = .ok w)
    (hd : DistinctBelow v) : ∃ v', Trim env f f' v v' := by
  induction n generalizing f f' v w anc with
  | zero => cases h
  | succ n ih =>
    have ih' : ∀ f f' v w a, R f f' → process env n f v ph ser a = .ok w → DistinctBelow v → ∃ v', Trim env f f' v v' :=
      fun f f' v w a hr h ht => ih f f' v w a hr h ht
    clear ih
    cases hR f f' hff with
    | same => exact ⟨v, .same ..⟩
    | sequence hc hi =>
      rw [seq_ok hc.pre] at h
      rcases h with ⟨rfl, rfl, h3⟩ | ⟨l, rs, rfl, rfl, h3, h4, h5, h6, -⟩
      · exact ⟨_, .null ..⟩
      · rename_i c c' item item' mn mx u
        have hdl : ∀ v ∈ l, DistinctBelow v := by
          cases hd with
          | list h => exact h
          | other h => exact absurd rfl (h l)
        obtain ⟨l', k1, k2⟩ := pick_list (l := l) (Q := fun _ x x' => ∃ g g', resolve env item = some g ∧ resolve env item' = some g' ∧
          Trim env g g' x x') fun i x hx => by
            obtain ⟨r, hr⟩ : ∃ r, rs[i]? = some r := ⟨_, List.getElem?_eq_getElem (by rw [h3]; exact (List.getElem?_eq_some_iff.1 hx).1)⟩
            obtain ⟨g, hg, hp⟩ := h6 i x r hx hr
            obtain ⟨g', hg', hrr⟩ := hi g hg
            obtain ⟨x', hx'⟩ := ih' g g' x r _ hrr hp (hdl x (List.mem_of_getElem? hx))
            exact ⟨x', g, g', hg, hg', hx'⟩
        refine ⟨.list l', .sequence ?_⟩
        cases l with
        | nil => cases List.eq_nil_of_length_eq_zero (by simpa using k1); exact .nil
        | cons x0 t =>
          obtain ⟨_, _, g, g', hg, hg', _⟩ := k2 0 x0 rfl
          refine TrimItems.build hg hg' k1 fun i x x' hx hx' => ?_
          obtain ⟨x1, e, g1, g1', a, b, c⟩ := k2 i x hx
          cases hg.symm.trans a; cases hg'.symm.trans b; cases hx'.symm.trans e
          exact c
    | tuple hc hlen hi =>
      rename_i c c' fs fs'
      rw [tup_ok hc.pre] at h
      rcases h with ⟨rfl, rfl, h3⟩ | ⟨l, rs, hv, rfl, h3, h4, h5⟩
      · exact ⟨_, .null ..⟩
      · have hdl : ∀ v ∈ l, DistinctBelow v := by
          rcases hv with rfl | rfl
          · cases hd with
            | list h => exact h
            | other h => exact absurd rfl (h l)
          · cases hd with
            | tuple h => exact h
            | other _ h => exact absurd rfl (h l)
        obtain ⟨l', k1, k2⟩ := pick_list (l := l) (Q := fun i x x' => ∃ f f' g g', fs[i]? = some f ∧ fs'[i]? = some f' ∧
            resolve env f = some g ∧ resolve env f' = some g' ∧ Trim env g g' x x') fun i x hx => by
          have hlt : i < fs.length := by rw [← h3]; exact (List.getElem?_eq_some_iff.1 hx).1
          obtain ⟨g, r, hg, hr, hp⟩ := h5 i _ x (List.getElem?_eq_getElem hlt) hx
          have hlt' : i < fs'.length := by rw [hlen]; exact hlt
          obtain ⟨g', hg', hrr⟩ := hi i _ _ (List.getElem?_eq_getElem hlt) (List.getElem?_eq_getElem hlt') g hg
          obtain ⟨x', hx'⟩ := ih' g g' x r _ hrr hp (hdl x (List.mem_of_getElem? hx))
          exact ⟨x', _, _, g, g', List.getElem?_eq_getElem hlt, List.getElem?_eq_getElem hlt', hg, hg', hx'⟩
        have hl : TrimSlots env fs fs' l l' := TrimSlots.build h3 hlen k1 fun i f f' x x' hf hf' hx hx' => by
          obtain ⟨x1, e, f1, f1', g, g', a, b, c, d, t⟩ := k2 i x hx
          cases hf.symm.trans a; cases hf'.symm.trans b; cases hx'.symm.trans e
          exact ⟨g, g', c, d, t⟩
        rcases hv with rfl | rfl
        · exact ⟨_, .tupleOfList hl⟩
        · exact ⟨_, .tuple hl⟩
    | map hc hk hv =>
      rename_i c c' key key' value value' req
      rw [map_ok hc.pre] at h
      rcases h with ⟨rfl, rfl, h3⟩ | ⟨d, es, rfl, h2, h3, out, rfl, rfl, h6⟩
      · exact ⟨_, .null ..⟩
      · have hdl : ∀ e ∈ d, DistinctBelow e.2 := by
          cases hd with
          | dict _ h => exact h
          | other _ _ h => exact absurd rfl (h d)
        obtain ⟨d', k1, k2⟩ := pick_list (l := d) (Q := fun _ (e e' : Val × Val) => e'.1 = e.1 ∧ ∃ g g', resolve env value = some g ∧
            resolve env value' = some g' ∧ Trim env g g' e.2 e'.2) fun i e he => by
          obtain ⟨k, x⟩ := e
          obtain ⟨k1, r, j1, j2, j3, g, st, j4, j5, j6⟩ := h3 i k x he
          obtain ⟨g', hg', hrr⟩ := hv g j4
          obtain ⟨x', hx'⟩ := ih' g g' x r _ hrr j6 (hdl _ (List.mem_of_getElem? he))
          exact ⟨(k, x'), rfl, g, g', j4, hg', hx'⟩
        refine ⟨.dict d', .map ?_⟩
        cases d with
        | nil => cases List.eq_nil_of_length_eq_zero (by simpa using k1); exact .nil
        | cons x0 t =>
          obtain ⟨_, _, _, g, g', hg, hg', _⟩ := k2 0 x0 rfl
          refine TrimValues.build hg hg' k1 fun i x x' hx hx' => ?_
          obtain ⟨x1, e, e1, g1, g1', a, b, c⟩ := k2 i x hx
          cases hg.symm.trans a; cases hg'.symm.trans b; cases hx'.symm.trans e
          exact ⟨e1, c⟩
    | «structure» hc hm =>
      rename_i c c' defn defn' s
      rw [struct_ok hc.pre (by simpa using hm.nodup)] at h
      rcases h with ⟨rfl, rfl, h3⟩ | ⟨d, rfl, h2, slots, h3, h4, rfl⟩
      · exact ⟨_, .null ..⟩
      · simp only [if_true] at h2 h3
        obtain ⟨hdk, hdl⟩ : DistinctKeys d ∧ ∀ e ∈ d, DistinctBelow e.2 := by
          cases hd with
          | dict h h' => exact ⟨h, h'⟩
          | other _ _ h => exact absurd rfl (h d)
        obtain ⟨d', hd'⟩ := trim_entries_exist (env := env) (defn := defn) (defn' := defn') d
          fun name v f f' hmem hf hf' => by
            have hin : name ∈ slots.map (·.1) := by rw [h3]; exact lookup_isSome.1 (by rw [hf]; rfl)
            obtain ⟨⟨nm, s⟩, hx, rfl⟩ := List.mem_map.1 hin
            obtain ⟨g, c, ⟨f1, hf1, hg, hcm⟩, hmiss, hval⟩ := h4 _ hx
            dsimp only at hf hf' hmem hf1 hval
            cases hf.symm.trans hf1
            obtain ⟨g', c', hg', -, hrr, -⟩ := hm.kept nm f f' hf hf' g c hg hcm
            rw [given_distinct hdk hmem] at hval
            by_cases hv : v = .none
            · subst hv; exact ⟨g, g', .none, hg, hg', .null ..⟩
            · have hmi : memberInput c (some v) ph false = some v := by
                unfold memberInput
                cases v <;> first | rfl | exact absurd rfl hv
              rw [hmi] at hval
              rcases hval with ⟨h, _⟩ | ⟨v1, w1, h, -, hp⟩
              · cases h
              · cases h
                obtain ⟨v', hv'⟩ := ih' g g' v w1 _ hrr hp (hdl _ hmem)
                exact ⟨g, g', v', hg, hg', hv'⟩
        exact ⟨_, .structure hd'⟩

/-! ### Filtering -/

/-- Filtering does not change the field. -/
def Untouched (env : Env) (o : Outer) (params : Params) (f : Field) : Prop :=
  ∀ n all g, filter env o params n all f ≠ .ok (.new g)

/-- What makes a field fit to lose members by filtering: there is no preprocessor, structures have no key order, and
the fields that filtering changes are neither polymorphic structures nor members with defaults. -/
def FilterFits (env : Env) (o : Outer) (params : Params) : Field → Prop
  | .sequence c _ _ _ _ => c.pre = none
  | .tuple c _ => c.pre = none
  | .map c _ _ _ => c.pre = none
  | .structure c defn _ ko => c.pre = none ∧ ko = [] ∧ (defn.map (·.1)).Nodup ∧
      ∀ e ∈ defn, ∀ g c, resolve env e.2 = some g → g.common? = some c → c.default = .none ∨ Untouched env o params g
  | .poly c disc vs s ko => Untouched env o params (.poly c disc vs s ko)
  | _ => True

/-- `f'` is what filtering makes of `f`, or `f` itself. -/
def FilterTo (env : Env) (o : Outer) (params : Params) (f f' : Field) : Prop :=
  f' = f ∨ ∃ n all, filter env o params n all f = .ok (.new f') ∧ Everywhere env (Built env) f ∧
    Everywhere env (FilterFits env o params) f

theorem filterSlots_at {env : Env} {rec : Bool → Field → Except EditErr Filtered} {all : Bool} {fs : List Field}
    {r : List Field × Bool} (h : filterSlots env rec all fs = .ok r) :
    r.1.length = fs.length ∧ ∀ (i : Nat) f, fs[i]? = some f → ∃ g x, resolve env f = some g ∧ rec all g = .ok x ∧ x ≠ .gone ∧
      r.1[i]? = some (x.get f) := by
  induction fs generalizing r with
  | nil => simp only [filterSlots, Except.ok.injEq] at h; subst h; simp
  | cons f t ih =>
    simp only [filterSlots, except_bind_eq_ok] at h
    obtain ⟨x, hx, h⟩ := h
    obtain ⟨g, hg, hx'⟩ := filterChild_ok.1 hx
    by_cases hgone : x = .gone
    · subst hgone; cases h
    · have h' : ∃ r', filterSlots env rec all t = .ok r' ∧ (x.get f :: r'.1, x.isNew || r'.2) = r := by
        cases x with
        | gone => exact absurd rfl hgone
        | same => simpa only [except_bind_eq_ok, except_pure, Except.ok.injEq] using h
        | new g1 => simpa only [except_bind_eq_ok, except_pure, Except.ok.injEq] using h
      obtain ⟨r', hr', rfl⟩ := h'
      obtain ⟨h1, h2⟩ := ih hr'
      refine ⟨by simp [h1], fun i f0 hf0 => ?_⟩
      cases i with
      | zero => cases hf0; exact ⟨g, x, hg, hx', hgone, rfl⟩
      | succ i => exact h2 i f0 hf0

/-- Filtering gives such a relation. -/
theorem filter_narrows (env : Env) (o : Outer) (params : Params) : Narrows env (FilterTo env o params) := by
  rintro f f' (rfl | ⟨n, all, h, hb, hfit⟩)
  · exact .same _
  cases n with
  | zero => simp [filter] at h
  | succ n =>
  have hf : ∀ s, f ≠ .undef s := by rintro s rfl; simp [filter] at h
  have hpf : filterOwn o f all params = true := by
    rw [filter_succ hf] at h
    cases hp : filterOwn o f all params with
    | true => rfl
    | false => rw [hp] at h; simp at h
  have horig := h
  rw [filter_succ hf, hpf] at h
  simp only [if_true] at h
  -- what is left of a child
  have hres : ∀ e g y b, resolve env e = some g → Child env f g → filter env o params n b g = .ok y → y ≠ .gone →
      resolve env (y.get e) = some (y.result g) ∧ FilterTo env o params g (y.result g) ∧ (y.result g).common? = g.common? := by
    intro e g y b hg hc hy hyg
    cases y with
    | gone => exact absurd rfl hyg
    | same => exact ⟨hg, .inl rfl, rfl⟩
    | new g1 =>
      exact ⟨resolve_of_defined (filter_new_defined hy), .inr ⟨n, b, hy, hb.child hc, hfit.child hc⟩, filter_new_common hy⟩
  cases f with
  | leaf c k => simp [filterBody] at h
  | union c fs => simp [filterBody] at h
  | undef s => exact absurd rfl (hf s)
  | sequence c i a b u =>
    simp only [filterBody, except_bind_eq_ok] at h
    obtain ⟨y, hy, h⟩ := h
    obtain ⟨gi, hgi, hy'⟩ := filterChild_ok.1 hy
    cases y with
    | gone => simp [filterOnly] at h
    | same => simp [filterOnly] at h
    | new g1 =>
      simp only [filterOnly, except_map_eq_ok, liftEdit_ok, initErrors_ok] at h
      obtain ⟨x, ⟨rfl, -⟩, hx⟩ := h
      cases hx
      have hp : c.pre = none := hfit.here
      refine .sequence ⟨rfl, rfl, rfl, rfl, hp, hp⟩ fun g hg => ?_
      rw [hgi] at hg; cases hg
      obtain ⟨r1, r2, -⟩ := hres i gi (.new g1) all hgi (.item hgi) hy' (by simp)
      exact ⟨_, r1, r2⟩
  | map c k v r =>
    simp only [filterBody, except_bind_eq_ok] at h
    obtain ⟨y, hy, h⟩ := h
    obtain ⟨gi, hgi, hy'⟩ := filterChild_ok.1 hy
    cases y with
    | gone => simp [filterOnly] at h
    | same => simp [filterOnly] at h
    | new g1 =>
      simp only [filterOnly, except_map_eq_ok, liftEdit_ok, cloneMapWith, except_bind_eq_ok, initErrors_ok] at h
      obtain ⟨a, ⟨k', hk', rfl, -⟩, hx⟩ := h
      cases hx
      have hp : c.pre = none := hfit.here
      refine .map ⟨rfl, rfl, rfl, rfl, hp, hp⟩ ?_ fun g hg => ?_
      · cases k with
        | none => cases hk'; trivial
        | some k0 =>
          simp only [cloneKey, except_map_eq_ok] at hk'
          obtain ⟨k1, hk1, rfl⟩ := hk'
          exact (clone_same_all env n k0 (hb.child .key) k1 hk1).1
      · rw [hgi] at hg; cases hg
        obtain ⟨r1, r2, -⟩ := hres v gi (.new g1) true hgi (.value hgi) hy' (by simp)
        exact ⟨_, r1, r2⟩
  | tuple c vs =>
    simp only [filterBody, except_bind_eq_ok] at h
    obtain ⟨y, hy, h⟩ := h
    obtain ⟨h1, h2⟩ := filterSlots_at hy
    split at h
    · simp only [except_map_eq_ok, liftEdit_ok, initErrors_ok] at h
      obtain ⟨a, ⟨rfl, -⟩, hx⟩ := h
      cases hx
      have hp : c.pre = none := hfit.here
      refine .tuple ⟨rfl, rfl, rfl, rfl, hp, hp⟩ h1 fun i f0 f0' hf0 hf0' g hg => ?_
      obtain ⟨g1, x, k1, k2, k3, k4⟩ := h2 i f0 hf0
      cases hg.symm.trans k1
      rw [hf0'] at k4; cases k4
      obtain ⟨r1, r2, -⟩ := hres f0 g x all hg (.tuple (List.mem_of_getElem? hf0) hg) k2 k3
      exact ⟨_, r1, r2⟩
    · cases h
  | «structure» c d s ko =>
    obtain ⟨hp, rfl, hnd, hdef⟩ := hfit.here
    simp only [filterBody, except_bind_eq_ok, filterStructure, except_map_eq_ok] at h
    obtain ⟨y, ⟨m, hm, rfl⟩, h⟩ := h
    obtain ⟨k1, k2, k3, k4⟩ := filterMembers_spec hm
    split at h
    · rename_i defn' hd
      simp only [except_map_eq_ok, liftEdit_ok, initErrors_ok] at h
      obtain ⟨a, ⟨rfl, -⟩, hx⟩ := h
      cases hx
      split at hd
      · cases hd
        refine .structure ⟨rfl, rfl, rfl, rfl, hp, hp⟩ ⟨hnd, by rw [nameMembers_keys]; exact k1, ?_⟩
        intro name f0 f0' hf0 hf0' g cg hg hcg
        obtain ⟨f1, hf1, rfl⟩ := mem_nameMembers.1 (lookup_mem hf0')
        obtain ⟨f2, g2, x, a1, a2, a3, a4, rfl⟩ := (k3 name f1).1 hf1
        have hmem : (name, f0) ∈ d := lookup_mem hf0
        cases (lookup_of_mem' hnd a1).symm.trans hf0
        cases hg.symm.trans a2
        obtain ⟨r1, r2, r3⟩ := hres f0 g x true hg (.member hmem hg) a3 a4
        obtain ⟨ch, st, hn⟩ := hb.here _ hmem g hg
        have hn' : (x.result g).name = some (ch :: st) := by rw [← hn]; unfold Field.name; rw [r3]
        rw [r1, Option.getD_some, nameMember_named hn']
        have hdd : ∀ s, x.result g ≠ .undef s := by
          intro s hs; rw [hs] at r3; rw [hcg] at r3; cases r3
        refine ⟨_, cg, resolve_of_defined hdd, r3.trans hcg, r2, rfl, rfl, rfl, ?_⟩
        rcases hdef _ hmem g cg hg hcg with hdn | hun
        · rw [hdn]; exact .null ..
        · cases x with
          | gone => exact absurd rfl a4
          | same => exact .same ..
          | new g1 => exact absurd a3 (hun _ _ _)
      · cases hd
    · cases h
  | poly c disc vs s ko => exact absurd horig (hfit.here _ _ _)

/-- C76. Filtering a schema: whatever the schema accepts has exactly one part without the entries of the members that
`filter` removed; the filtered schema accepts that part, and its result is the same part of the result. -/
theorem C76_filter (env : Env) (o : Outer) (params : Params) (k : Nat) (all : Bool) (f f' : Field)
    (hb : Everywhere env (Built env) f) (hfit : Everywhere env (FilterFits env o params) f)
    (hfil : filter env o params k all f = .ok (.new f')) (n : Nat) (v w : Val) (ph : Phase) (ser : Bool) (anc anc' : List Str)
    (hd : DistinctBelow v) (h : process env n f v ph ser anc = .ok w) :
    ∃ v' w', (∀ x, Trim env f f' v x ↔ x = v') ∧ process env n f' v' ph ser anc' = .ok w' ∧ ∀ x, Trim env f f' w x ↔ x = w' := by
  have hr : FilterTo env o params f f' := .inr ⟨k, all, hfil, hb, hfit⟩
  obtain ⟨v', hv'⟩ := C76_exists env _ (filter_narrows env o params) n f f' v w ph ser anc hr h hd
  obtain ⟨w', hp, hw'⟩ := C76_narrow env _ (filter_narrows env o params) n f f' v v' w ph ser anc anc' hr h hv'
  exact ⟨v', w', fun x => ⟨fun hx => C76_unique hx hv', fun e => e ▸ hv'⟩, hp, fun x => ⟨fun hx => C76_unique hx hw', fun e => e ▸ hw'⟩⟩

/-! ### An example -/

namespace Ex

/-- A person with a required name and an optional phone number. -/
def contact : Field := .structure { required := true }
  [(c!"name", .leaf { name := some c!"name", required := true } (.text none none none true)),
   (c!"phone", .leaf { name := some c!"phone" } (.integer none none))] true []
def contact' : Field := .structure { required := true }
  [(c!"name", .leaf { name := some c!"name", required := true } (.text none none none true))] true []

/-- A list of contacts and a remark. -/
def agenda : Field := .structure { required := true }
  [(c!"contacts", .sequence { name := some c!"contacts", required := true } contact none none false),
   (c!"remark", .leaf { name := some c!"remark" } (.integer none none))] true []
def agenda' : Field := .structure { required := true }
  [(c!"contacts", .sequence { name := some c!"contacts", required := true } contact' none none false)] true []

def agendaValue : Val := .dict [(.str c!"remark", .int 1), (.str c!"contacts", .list [.dict [(.str c!"phone", .int 7), (.str c!"name", .str c!"jo")]])]
def agendaValue' : Val := .dict [(.str c!"contacts", .list [.dict [(.str c!"name", .str c!"jo")]])]

/-- `filter(required=True)` takes the phone numbers and the remark out. -/
theorem agenda_filtered : filter env outer [(c!"required", .bool true)] 5 true agenda = .ok (.new agenda') := by
  simp [filter, filterOwn, filterLoop, candidateOf, attrOf, agenda, agenda', contact, contact', Field.common?, commonAttr, pyEq, numOf, numEq,
    filterBody, filterStructure, filterMembers, filterChild, resolve, keepMember, Except.map, liftEdit, initErrors, nameMembers,
    nameMember, Field.setCommon, filterOnly]

theorem agenda_built : Everywhere env (Built env) agenda ∧ Everywhere env (FilterFits env outer [(c!"required", .bool true)]) agenda := by
  have key : ∀ P : Field → Prop, P agenda → P (.sequence { name := some c!"contacts", required := true } contact none none false) →
      P contact → (∀ c k, P (.leaf c k)) → Everywhere env P agenda := by
    intro P h1 h2 h3 h4
    refine .mk' h1 fun g hg => ?_
    cases hg with
    | member hm hr =>
      rcases List.mem_cons.1 hm with h | h
      · cases h; cases hr
        refine .mk' h2 fun g hg => ?_
        cases hg with
        | item hr =>
          cases hr
          refine .mk' h3 fun g hg => ?_
          cases hg with
          | member hm hr =>
            rcases List.mem_cons.1 hm with h | h
            · cases h; cases hr; exact .leaf (h4 ..)
            · cases List.mem_singleton.1 h; cases hr; exact .leaf (h4 ..)
      · cases List.mem_singleton.1 h; cases hr; exact .leaf (h4 ..)
  refine ⟨key _ ?_ trivial ?_ fun _ _ => trivial, key _ ⟨rfl, rfl, by decide, ?_⟩ rfl ⟨rfl, rfl, by decide, ?_⟩ fun _ _ => trivial⟩
  all_goals
    intro e he g
    rcases List.mem_cons.1 he with rfl | he
  · intro hg; cases hg; exact ⟨_, _, rfl⟩
  · intro hg; cases List.mem_singleton.1 he; cases hg; exact ⟨_, _, rfl⟩
  · intro hg; cases hg; exact ⟨_, _, rfl⟩
  · intro hg; cases List.mem_singleton.1 he; cases hg; exact ⟨_, _, rfl⟩
  · intro c hg hc; cases hg; cases hc; exact .inl rfl
  · intro c hg hc; cases List.mem_singleton.1 he; cases hg; cases hc; exact .inl rfl
  · intro c hg hc; cases hg; cases hc; exact .inl rfl
  · intro c hg hc; cases List.mem_singleton.1 he; cases hg; cases hc; exact .inl rfl

theorem agenda_distinct : DistinctBelow agendaValue := by
  have hi : ∀ i, DistinctBelow (.int i) := fun i => .other (by simp) (by simp) (by simp)
  have hs : ∀ i, DistinctBelow (.str i) := fun i => .other (by simp) (by simp) (by simp)
  refine .dict (by unfold DistinctKeys; simp [pyEq]) ?_
  simp only [List.mem_cons, List.not_mem_nil, or_false, forall_eq_or_imp, forall_eq]
  refine ⟨hi _, .list ?_⟩
  simp only [List.mem_cons, List.not_mem_nil, or_false, forall_eq]
  refine .dict (by unfold DistinctKeys; simp [pyEq]) ?_
  simp only [List.mem_cons, List.not_mem_nil, or_false, forall_eq_or_imp, forall_eq]
  exact ⟨hi _, hs _⟩

theorem agenda_trim : Trim env agenda agenda' agendaValue agendaValue' :=
  .structure (.drop rfl rfl (.keep rfl rfl rfl rfl (.sequence (.cons rfl rfl (.structure (.drop rfl rfl (.keep rfl rfl rfl rfl (.same ..) .nil))) .nil)) .nil))

end Ex

/-- The hypotheses of `C76_filter`, for two schemas and a value of which two levels lose an entry. -/
example := C76_filter Ex.env Ex.outer [(c!"required", .bool true)] 5 true Ex.agenda Ex.agenda' Ex.agenda_built.1 Ex.agenda_built.2
  Ex.agenda_filtered 5 Ex.agendaValue _ .inbound false [] [] Ex.agenda_distinct rfl

/-! ### Deviations -/

/-- C76. A default is not filtered: a member with the default {'name': 'jo', 'phone': 7} keeps it when its 'phone' is
removed, and the empty input, accepted before, is then rejected. -/
theorem C76_default_kept :
    let g (d : Val) (defn : List (Str × Field)) : Field := .structure { name := some c!"owner", required := true, default := d } defn true []
    let name := (c!"name", Field.leaf { name := some c!"name", required := true } (.text none none none true))
    let phone := (c!"phone", Field.leaf { name := some c!"phone" } (.integer none none))
    let d : Val := .dict [(.str c!"name", .str c!"jo"), (.str c!"phone", .int 7)]
    let f : Field := .structure { required := true } [(c!"owner", g d [name, phone])] true []
    let f' : Field := .structure { required := true } [(c!"owner", g d [name])] true []
    filter Ex.env Ex.outer [(c!"required", .bool true)] 5 true f = .ok (.new f') ∧
    process Ex.env 5 f (.dict []) .inbound false [] = .ok (.dict [(.str c!"owner", d)]) ∧
    ∀ w, process Ex.env 5 f' (.dict []) .inbound false [] ≠ .ok w := by
  refine ⟨?_, rfl, ?_⟩
  · simp [filter, filterOwn, filterLoop, candidateOf, attrOf, Field.common?, commonAttr, pyEq, numOf, numEq,
      filterBody, filterStructure, filterMembers, filterChild, resolve, keepMember, Except.map, liftEdit, initErrors, nameMembers,
      nameMember, Field.setCommon, filterOnly]
  · intro w h; cases h

/-- C76. A key order is not filtered either: it still names the removed members, and every dict fails with a
KeyError. -/
theorem C76_key_order_kept :
    let name := (c!"name", Field.leaf { name := some c!"name", required := true } (.text none none none true))
    let phone := (c!"phone", Field.leaf { name := some c!"phone" } (.integer none none))
    let f : Field := .structure { required := true } [name, phone] true [c!"phone", c!"name"]
    let f' : Field := .structure { required := true } [name] true [c!"phone", c!"name"]
    filter Ex.env Ex.outer [(c!"required", .bool true)] 5 true f = .ok (.new f') ∧
    process Ex.env 5 f (.dict [(.str c!"name", .str c!"jo")]) .inbound false [] = .ok (.dict [(.str c!"name", .str c!"jo")]) ∧
    process Ex.env 5 f' (.dict [(.str c!"name", .str c!"jo")]) .inbound false [] = .error (.py .keyError) := by
  refine ⟨?_, rfl, rfl⟩
  simp [filter, filterOwn, filterLoop, candidateOf, attrOf, Field.common?, commonAttr, pyEq, numOf, numEq,
      filterBody, filterStructure, filterMembers, filterChild, resolve, keepMember, Except.map, liftEdit, initErrors, nameMembers,
      nameMember, Field.setCommon, filterOnly]

end Scheme
