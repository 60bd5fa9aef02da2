import Verif.Lemmas.Local
import Verif.Spec.Examples

/-! # C85: changing one part of a value changes the outcome only at that part -/

namespace Scheme

theorem EndsAs.tame {r : Except Exn Val} {x : Val} (h : EndsAs r x) : tame r := by
  cases h <;> trivial

theorem endsAs_iff {r : Except Exn Val} {x : Val} : EndsAs r x ↔ Scheme.tame r ∧ x = outcomeVal r := by
  constructor
  · intro h; cases h <;> exact ⟨trivial, rfl⟩
  · rintro ⟨ht, rfl⟩
    cases r with
    | ok w => exact .result
    | error e =>
      cases e with
      | structural e => exact .error
      | _ => exact absurd ht id

/-- What an outcome with an open level shows. -/
theorem OneHole.shown {s : EStep} {W S : Val → Val} (h : OneHole s W S) (o : Val) :
    ErrChild (S o) s o ∧ (∀ y, ErrChild (S o) s y → y = o) ∧ Reveals (W o) s o ∧ (∀ y, Reveals (W o) s y → y = o) ∧
    (∀ t, t ≠ s → ∀ o' y, (Reveals (W o) t y ↔ ErrChild (S o') t y)) := by
  have hget : ∀ (l r : List Val), (l ++ o :: r)[l.length]? = some o := fun l r => by simp
  have hoff : ∀ (l r : List Val) (o' : Val) (j : Nat), j ≠ l.length → (l ++ o :: r)[j]? = (l ++ o' :: r)[j]? := by
    intro l r o' j hj
    by_cases hlt : j < l.length
    · rw [List.getElem?_append_left hlt, List.getElem?_append_left hlt]
    · rw [List.getElem?_append_right (by omega), List.getElem?_append_right (by omega)]
      obtain ⟨i, hi⟩ : ∃ i, j - l.length = i + 1 := ⟨j - l.length - 1, by omega⟩
      rw [hi]; rfl
  cases h with
  | list l r =>
    refine ⟨.idx (hget l r), ?_, .value (.idx (hget l r)), ?_, ?_⟩
    · rintro y ⟨h⟩; rw [hget] at h; exact (Option.some.inj h).symm
    · rintro y ⟨⟨h⟩⟩; rw [hget] at h; exact (Option.some.inj h).symm
    · intro t ht o' y
      constructor
      · rintro ⟨⟨h⟩⟩
        refine .idx ?_
        rw [← hoff l r o' _ fun hh => ht (by rw [hh])]; exact h
      · rintro ⟨h⟩
        refine .value (.idx ?_)
        rw [hoff l r o' _ fun hh => ht (by rw [hh])]; exact h
  | tuple l r =>
    refine ⟨.idx (hget l r), ?_, .tuple (hget l r), ?_, ?_⟩
    · rintro y ⟨h⟩; rw [hget] at h; exact (Option.some.inj h).symm
    · rintro y h
      cases h with
      | value h => cases h
      | tuple h => rw [hget] at h; exact (Option.some.inj h).symm
    · intro t ht o' y
      constructor
      · intro h
        cases h with
        | value h => cases h
        | tuple h =>
          refine .idx ?_
          rw [← hoff l r o' _ fun hh => ht (by rw [hh])]; exact h
      · rintro ⟨h⟩
        refine .tuple ?_
        rw [hoff l r o' _ fun hh => ht (by rw [hh])]; exact h
  | dict l k r hk =>
    have hmem : ∀ y, (k, y) ∈ l ++ (k, o) :: r → y = o := by
      intro y hy
      simp only [List.mem_append, List.mem_cons, Prod.mk.injEq, true_and] at hy
      rcases hy with hy | rfl | hy
      · exact absurd rfl (hk _ (List.mem_append_left _ hy))
      · rfl
      · exact absurd rfl (hk _ (List.mem_append_right _ hy))
    refine ⟨.key (by simp), ?_, .value (.key (by simp)), ?_, ?_⟩
    · rintro y ⟨⟩
      exact hmem _ (by assumption)
    · rintro y ⟨⟨⟩⟩
      exact hmem _ (by assumption)
    · intro t ht o' y
      constructor
      · rintro ⟨⟨⟩⟩
        rename_i k2 hm
        refine .key ?_
        simp only [List.mem_append, List.mem_cons, Prod.mk.injEq] at hm ⊢
        rcases hm with hm | ⟨rfl, _⟩ | hm
        · exact .inl hm
        · exact absurd rfl ht
        · exact .inr (.inr hm)
      · rintro ⟨⟩
        rename_i k2 hm
        refine .value (.key ?_)
        simp only [List.mem_append, List.mem_cons, Prod.mk.injEq] at hm ⊢
        rcases hm with hm | ⟨rfl, _⟩ | hm
        · exact .inl hm
        · exact absurd rfl ht
        · exact .inr (.inr hm)

theorem shown_error {cls : ErrCls} {anc : List Str} {es : List Val} {st v : Val} {s : EStep} {y : Val} :
    Reveals (.exc cls anc es st v) s y ↔ ErrChild st s y := by
  constructor
  · intro h
    cases h with
    | value h => cases h
    | error h => exact h
  · exact .error

/-- The outcome of a container at an open level. -/
theorem open_shown {s : EStep} {W S : Val → Val} (h : OneHole s W S) {O : Bool} {r : Except Exn Val} {anc : List Str} {v x : Val}
    (hx : EndsAs (if O && isOk r then .ok (W (outcomeVal r))
      else .error (.structural ⟨.validation, anc, [], S (outcomeVal r), v⟩)) x) :
    Reveals x s (outcomeVal r) ∧ (∀ y, Reveals x s y → y = outcomeVal r) ∧
      ∀ t, t ≠ s → ∀ o' y, (Reveals x t y ↔ ErrChild (S o') t y) := by
  obtain ⟨h1, h2, h3, h4, h5⟩ := h.shown (outcomeVal r)
  split at hx
  · cases hx
    exact ⟨h3, h4, h5⟩
  · cases hx
    refine ⟨shown_error.2 h1, fun y hy => h2 y (shown_error.1 hy), fun t ht o' y => ?_⟩
    rw [shown_error]
    exact ((h.shown (outcomeVal r)).2.2.2.2 t ht (outcomeVal r) y).symm.trans (h5 t ht o' y)

theorem Level.congr {D : Val → Prop} {s : EStep} {K : Val → Val} {anc : List Str} {P P' Q : Val → Except Exn Val}
    (h : Level D s K anc P Q) (hp : ∀ a, D a → P' a = P a) : Level D s K anc P' Q := by
  cases h with
  | never h => exact .never fun a ha => by rw [hp a ha]; exact h a ha
  | stuck cls es ht h =>
    exact .stuck cls es (ht.imp (fun ht a ha => by rw [hp a ha]; exact ht a ha) fun ht a ha => by rw [hp a ha]; exact ht a ha)
      fun a ha => by rw [hp a ha]; exact h a ha
  | opens W S O hw h => exact .opens W S O hw fun a ha => by rw [hp a ha]; exact h a ha

/-- One step of the way to the part. -/
theorem Gap.level {env : Env} {ph : Phase} {ser : Bool} {D : Val → Prop} {n : Nat} {f : Field} {anc : List Str} {C : Val → Val}
    {p : List EStep} {m : Nat} {g : Field} {a : List Str} (h : Gap env ph ser D n f anc C p m g a) (ha : anc ≠ []) :
    (p = [] ∧ ∀ b, D b → process env n f (C b) ph ser anc = process env m g b ph ser a) ∨
    ∃ s q n' f' anc' C' K, p = s :: q ∧ anc' ≠ [] ∧ Gap env ph ser D n' f' anc' C' q m g a ∧ (∀ b, C b = K (C' b)) ∧
      Level (fun x => ∃ b, D b ∧ x = C' b) s K anc (fun x => process env n f (K x) ph ser anc)
        (fun x => process env n' f' x ph ser anc') := by
  induction h with
  | here => exact .inl ⟨rfl, fun _ _ => rfl⟩
  | item l r hpre hi hg =>
    exact .inr ⟨_, _, _, _, _, _, fun x => .list (l ++ x :: r), rfl, by simp, hg, fun _ => rfl, level_item _ l r hpre hi ha⟩
  | slot l r hpre hl hi hg =>
    exact .inr ⟨_, _, _, _, _, _, fun x => .list (l ++ x :: r), rfl, by simp, hg, fun _ => rfl,
      level_slot _ l r hpre hl hi ha _ (.inl fun _ => rfl)⟩
  | slotT l r hpre hl hi hg =>
    exact .inr ⟨_, _, _, _, _, _, fun x => .tuple (l ++ x :: r), rfl, by simp, hg, fun _ => rfl,
      level_slot _ l r hpre hl hi ha _ (.inr fun _ => rfl)⟩
  | entry l r hpre hv hk hkk hst ho hg =>
    exact .inr ⟨_, _, _, _, _, _, fun x => .dict (l ++ (_, x) :: r), rfl, by simp, hg, fun _ => rfl,
      level_entry _ l r hpre hv hk hkk hst ho ha⟩
  | member l r hpre hnd hm hdec ho hnull hg =>
    exact .inr ⟨_, _, _, _, _, _, fun x => .dict (l ++ (_, x) :: r), rfl, by simp, hg, fun _ => rfl,
      level_member _ l r hpre hnd hm hdec ho (by rintro _ ⟨b, hb, rfl⟩; exact hnull b hb) ha⟩
  | @variant n c disc dname variants strict raw id defn anc C p m g a d hpre hname hC hraw hnn hid hh hv hne hg ih =>
    have heq := fun b hb => C13_dispatch env n c disc dname variants strict hpre hname (d b) raw id ph ser anc ha (hraw b hb) hnn hid hh defn hv hne
    rcases ih ha with ⟨rfl, h⟩ | ⟨s, q, n', f', anc', C', K, hp, ha', hg', hCK, hlev⟩
    · exact .inl ⟨rfl, fun b hb => by rw [← h b hb, hC b hb, heq b hb]⟩
    · refine .inr ⟨s, q, n', f', anc', C', K, hp, ha', hg', hCK, hlev.congr ?_⟩
      rintro _ ⟨b, hb, rfl⟩
      rw [← hCK b, hC b hb, heq b hb]

section
variable {env : Env} {ph : Phase} {ser : Bool} {D : Val → Prop} {n : Nat} {f : Field} {anc : List Str} {C : Val → Val}
  {p : List EStep} {m : Nat} {g : Field} {a : List Str}

/-- C85. Whatever the outcome shows away from the changed part, the changed value's outcome shows too. -/
theorem C85_elsewhere (h : Gap env ph ser D n f anc C p m g a) (ha : anc ≠ []) {b b' : Val} (hb : D b) (hb' : D b')
    {x x' : Val} (hx : EndsAs (process env n f (C b) ph ser anc) x) (hx' : EndsAs (process env n f (C b') ph ser anc) x')
    {q : List EStep} (hq : Parting p q) (y : Val) : RevealsAt x q y ↔ RevealsAt x' q y := by
  suffices key : ∀ {n f anc C p} (_ : Gap env ph ser D n f anc C p m g a) (_ : anc ≠ []) {b b' : Val} (_ : D b) (_ : D b')
      {x x' : Val} (_ : EndsAs (process env n f (C b) ph ser anc) x) (_ : EndsAs (process env n f (C b') ph ser anc) x')
      {q : List EStep} (_ : Parting p q) (y : Val), RevealsAt x q y → RevealsAt x' q y from
    ⟨key h ha hb hb' hx hx' hq y, key h ha hb' hb hx' hx hq y⟩
  clear hq hx hx' hb hb' ha h
  intro n f anc C p
  induction p generalizing n f anc C with
  | nil => intro _ _ _ _ _ _ _ _ _ _ q hq; cases hq
  | cons s p ih =>
    intro h ha b b' hb hb' x x' hx hx' q hq y hy
    rcases h.level ha with ⟨h0, _⟩ | ⟨s', p', n', f', anc', C', K, hp, ha', hg, hCK, hlev⟩
    · cases h0
    · cases hp
      rw [hCK] at hx hx'
      obtain ⟨ht, hxe⟩ := endsAs_iff.1 hx
      obtain ⟨ht', hxe'⟩ := endsAs_iff.1 hx'
      cases hlev with
      | never hn => exact absurd ht (hn _ ⟨b, hb, rfl⟩)
      | stuck cls es _ hs =>
        rw [hs _ ⟨b, hb, rfl⟩ ht] at hx
        cases hx
        cases hq <;>
        · cases hy with
          | step h1 _ => cases shown_error.1 h1
      | opens W S O hw ho =>
        have h1 := ho _ ⟨b, hb, rfl⟩
        have h1' := ho _ ⟨b', hb', rfl⟩
        have hQ := h1.1 ht
        have hQ' := h1'.1 ht'
        rw [h1.2 hQ] at hx
        rw [h1'.2 hQ'] at hx'
        obtain ⟨a1, a2, a3⟩ := open_shown hw hx
        obtain ⟨b1, b2, b3⟩ := open_shown hw hx'
        cases hq with
        | now hne =>
          cases hy with
          | step hs hy => exact .step ((b3 _ (Ne.symm hne) .none _).2 ((a3 _ (Ne.symm hne) .none _).1 hs)) hy
        | later hq =>
          cases hy with
          | step hs hy =>
            rw [a2 _ hs] at hy
            exact .step b1 (ih hg ha' hb hb' (endsAs_iff.2 ⟨hQ, rfl⟩) (endsAs_iff.2 ⟨hQ', rfl⟩) hq y hy)

/-- C85. What the outcome shows at the part is the outcome of the part's own field. -/
theorem C85_there (h : Gap env ph ser D n f anc C p m g a) (ha : anc ≠ []) {b : Val} (hb : D b) {x y : Val}
    (hx : EndsAs (process env n f (C b) ph ser anc) x) (hy : RevealsAt x p y) : EndsAs (process env m g b ph ser a) y := by
  induction p generalizing n f anc C x with
  | nil =>
    cases hy
    rcases h.level ha with ⟨_, h0⟩ | ⟨_, _, _, _, _, _, _, hp, _⟩
    · rw [← h0 b hb]; exact hx
    · cases hp
  | cons s p ih =>
    rcases h.level ha with ⟨h0, _⟩ | ⟨s', p', n', f', anc', C', K, hp, ha', hg, hCK, hlev⟩
    · cases h0
    · cases hp
      rw [hCK] at hx
      obtain ⟨ht, hxe⟩ := endsAs_iff.1 hx
      cases hy with
      | step hs hy =>
        cases hlev with
        | never hn => exact absurd ht (hn _ ⟨b, hb, rfl⟩)
        | stuck cls es _ h1 =>
          rw [h1 _ ⟨b, hb, rfl⟩ ht] at hx
          cases hx
          cases shown_error.1 hs
        | opens W S O hw ho =>
          have h1 := ho _ ⟨b, hb, rfl⟩
          have hQ := h1.1 ht
          rw [h1.2 hQ] at hx
          obtain ⟨a1, a2, a3⟩ := open_shown hw hx
          rw [a2 _ hs] at hy
          exact ih hg ha' (endsAs_iff.2 ⟨hQ, rfl⟩) hy

/-- C85. Both outcomes show the part, or on the way to it a container is rejected as a whole, in both
outcomes with the same error. -/
theorem C85_reached (h : Gap env ph ser D n f anc C p m g a) (ha : anc ≠ []) {b b' : Val} (hb : D b) (hb' : D b')
    {x x' : Val} (hx : EndsAs (process env n f (C b) ph ser anc) x) (hx' : EndsAs (process env n f (C b') ph ser anc) x') :
    ((∃ y, RevealsAt x p y) ∧ ∃ y', RevealsAt x' p y') ∨
    ∃ u s w cls loc es v v', p = u ++ s :: w ∧ RevealsAt x u (.exc cls loc es .none v) ∧ RevealsAt x' u (.exc cls loc es .none v') := by
  induction p generalizing n f anc C x x' with
  | nil => exact .inl ⟨⟨_, .here⟩, ⟨_, .here⟩⟩
  | cons s p ih =>
    rcases h.level ha with ⟨h0, _⟩ | ⟨s', p', n', f', anc', C', K, hp, ha', hg, hCK, hlev⟩
    · cases h0
    · cases hp
      rw [hCK] at hx hx'
      obtain ⟨ht, hxe⟩ := endsAs_iff.1 hx
      obtain ⟨ht', hxe'⟩ := endsAs_iff.1 hx'
      cases hlev with
      | never hn => exact absurd ht (hn _ ⟨b, hb, rfl⟩)
      | stuck cls es _ hs =>
        rw [hs _ ⟨b, hb, rfl⟩ ht] at hx
        rw [hs _ ⟨b', hb', rfl⟩ ht'] at hx'
        cases hx; cases hx'
        exact .inr ⟨[], s, p, _, _, _, _, _, rfl, .here, .here⟩
      | opens W S O hw ho =>
        have h1 := ho _ ⟨b, hb, rfl⟩
        have h1' := ho _ ⟨b', hb', rfl⟩
        have hQ := h1.1 ht
        have hQ' := h1'.1 ht'
        rw [h1.2 hQ] at hx
        rw [h1'.2 hQ'] at hx'
        obtain ⟨a1, a2, a3⟩ := open_shown hw hx
        obtain ⟨b1, b2, b3⟩ := open_shown hw hx'
        rcases ih hg ha' (endsAs_iff.2 ⟨hQ, rfl⟩) (endsAs_iff.2 ⟨hQ', rfl⟩) with
          ⟨⟨y, hy⟩, y', hy'⟩ | ⟨u, t, w, cls, loc, es, v, v', rfl, hu, hu'⟩
        · exact .inl ⟨⟨y, .step a1 hy⟩, y', .step b1 hy'⟩
        · exact .inr ⟨s :: u, t, w, cls, loc, es, v, v', rfl, .step a1 hu, .step b1 hu'⟩

open Classical in
theorem OneHole.replaced {s : EStep} {W S : Val → Val} (h : OneHole s W S) (o : Val) (p : List EStep) (y : Val) :
    replaced (W o) (s :: p) y = W (Scheme.replaced o p y) := by
  have hl : ∀ (l r : List Val), ((l ++ o :: r).mapIdx fun j x => if j = l.length then Scheme.replaced x p y else x) =
      l ++ Scheme.replaced o p y :: r := by
    intro l r
    rw [mapIdx_gap, if_pos rfl]
    congr 1
    · apply List.ext_getElem?
      intro i
      rw [List.getElem?_mapIdx]
      by_cases hi : i < l.length
      · rw [List.getElem?_eq_getElem hi]; simp; omega
      · rw [List.getElem?_eq_none (by omega)]; rfl
    · congr 1
      apply List.ext_getElem?
      intro i
      rw [List.getElem?_mapIdx]
      cases r[i]? with
      | none => rfl
      | some v => simp
  cases h with
  | list l r => simp only [Scheme.replaced, hl]
  | tuple l r => simp only [Scheme.replaced, hl]
  | dict l k r hk =>
    simp only [Scheme.replaced, List.map_append, List.map_cons, if_true]
    have : ∀ d : List (Val × Val), (∀ e ∈ d, e ∈ l ++ r) → (d.map fun e => if e.1 = k then (e.1, Scheme.replaced e.2 p y) else e) = d := by
      intro d hd
      conv => rhs; rw [← List.map_id d]
      exact List.map_congr_left fun e he => if_neg (hk e (hd e he))
    rw [this l fun e he => List.mem_append_left _ he, this r fun e he => List.mem_append_right _ he]

/-- C85. An accepted value has its part accepted by the part's field, and the result of the part is in its
place. -/
theorem C85_part (h : Gap env ph ser D n f anc C p m g a) (ha : anc ≠ []) {b : Val} (hb : D b) {w : Val}
    (hw : process env n f (C b) ph ser anc = .ok w) : ∃ y, process env m g b ph ser a = .ok y ∧ RevealsAt w p y := by
  induction p generalizing n f anc C w with
  | nil =>
    rcases h.level ha with ⟨_, h0⟩ | ⟨_, _, _, _, _, _, _, hp, _⟩
    · rw [h0 b hb] at hw; exact ⟨w, hw, .here⟩
    · cases hp
  | cons s p ih =>
    rcases h.level ha with ⟨h0, _⟩ | ⟨s', p', n', f', anc', C', K, hp, ha', hg, hCK, hlev⟩
    · cases h0
    · cases hp
      rw [hCK] at hw
      cases hlev with
      | never hn => exact absurd (by simp only [hw]; trivial) (hn _ ⟨b, hb, rfl⟩)
      | stuck cls es _ hs =>
        have := hs _ ⟨b, hb, rfl⟩ (by simp only [hw]; trivial)
        simp only [hw] at this; cases this
      | opens W S O hole ho =>
        have h1 := ho _ ⟨b, hb, rfl⟩
        have hQ := h1.1 (by simp only [hw]; trivial)
        have h2 := h1.2 hQ
        simp only [hw] at h2
        split at h2
        · rename_i hok
          cases h2
          rw [Bool.and_eq_true, isOk_iff] at hok
          obtain ⟨y, hy, hs⟩ := ih hg ha' hok.2
          exact ⟨y, hy, .step (hole.shown _).2.2.1 hs⟩
        · cases h2

/-- C85. An accepted value with a part replaced by another accepted part is accepted, and its result is the
earlier result with that part replaced. -/
theorem C85_replace (h : Gap env ph ser D n f anc C p m g a) (ha : anc ≠ []) {b b' : Val} (hb : D b) (hb' : D b') {w y' : Val}
    (hw : process env n f (C b) ph ser anc = .ok w) (hy : process env m g b' ph ser a = .ok y') :
    process env n f (C b') ph ser anc = .ok (replaced w p y') := by
  induction p generalizing n f anc C w with
  | nil =>
    rcases h.level ha with ⟨_, h0⟩ | ⟨_, _, _, _, _, _, _, hp, _⟩
    · rw [h0 b' hb', hy, replaced]
    · cases hp
  | cons s p ih =>
    rcases h.level ha with ⟨h0, _⟩ | ⟨s', p', n', f', anc', C', K, hp, ha', hg, hCK, hlev⟩
    · cases h0
    · cases hp
      rw [hCK] at hw ⊢
      cases hlev with
      | never hn => exact absurd (by simp only [hw]; trivial) (hn _ ⟨b, hb, rfl⟩)
      | stuck cls es _ hs =>
        have := hs _ ⟨b, hb, rfl⟩ (by simp only [hw]; trivial)
        simp only [hw] at this; cases this
      | opens W S O hole ho =>
        have h1 := ho _ ⟨b, hb, rfl⟩
        have hQ := h1.1 (by simp only [hw]; trivial)
        have h2 := h1.2 hQ
        simp only [hw] at h2
        split at h2
        · rename_i hok
          cases h2
          rw [Bool.and_eq_true, isOk_iff] at hok
          have h3 := ih hg ha' hok.2
          have h4 := (ho _ ⟨b', hb', rfl⟩).2
          simp only [h3] at h4
          rw [h4 trivial, hok.1, hole.replaced]
          rfl
        · cases h2

/-- C85. An accepted value with a part replaced by one that its field rejects is rejected, and the error
shows the part's error at the part's place. -/
theorem C85_break (h : Gap env ph ser D n f anc C p m g a) (ha : anc ≠ []) {b b' : Val} (hb : D b) (hb' : D b') {w : Val}
    (hw : process env n f (C b) ph ser anc = .ok w) {e : SErr} (he : process env m g b' ph ser a = .error (.structural e)) :
    ∃ e', process env n f (C b') ph ser anc = .error (.structural e') ∧
      RevealsAt (.exc e'.cls e'.identity e'.errors e'.struct e'.value) p (.exc e.cls e.identity e.errors e.struct e.value) := by
  induction p generalizing n f anc C w with
  | nil =>
    rcases h.level ha with ⟨_, h0⟩ | ⟨_, _, _, _, _, _, _, hp, _⟩
    · rw [h0 b' hb', he]; exact ⟨e, rfl, .here⟩
    · cases hp
  | cons s p ih =>
    rcases h.level ha with ⟨h0, _⟩ | ⟨s', p', n', f', anc', C', K, hp, ha', hg, hCK, hlev⟩
    · cases h0
    · cases hp
      rw [hCK] at hw ⊢
      cases hlev with
      | never hn => exact absurd (by simp only [hw]; trivial) (hn _ ⟨b, hb, rfl⟩)
      | stuck cls es _ hs =>
        have := hs _ ⟨b, hb, rfl⟩ (by simp only [hw]; trivial)
        simp only [hw] at this; cases this
      | opens W S O hole ho =>
        have h1 := ho _ ⟨b, hb, rfl⟩
        have hQ := h1.1 (by simp only [hw]; trivial)
        have h2 := h1.2 hQ
        simp only [hw] at h2
        split at h2
        · rename_i hok
          cases h2
          rw [Bool.and_eq_true, isOk_iff] at hok
          obtain ⟨e', h3, h5⟩ := ih hg ha' hok.2
          have h4 := (ho _ ⟨b', hb', rfl⟩).2
          simp only [h3] at h4
          rw [h4 trivial]
          refine ⟨_, by rw [isOk, Bool.and_false]; rfl, ?_⟩
          exact .step (shown_error.2 (hole.shown _).1) h5
        · cases h2

/-- C85. If a value is accepted or rejected, so is the value with the part changed, provided that the part's
own field accepts or rejects the new part. -/
theorem C85_ends (h : Gap env ph ser D n f anc C p m g a) (ha : anc ≠ []) {b b' : Val} (hb : D b) (hb' : D b') {x y' : Val}
    (hx : EndsAs (process env n f (C b) ph ser anc) x) (hy : EndsAs (process env m g b' ph ser a) y') :
    ∃ x', EndsAs (process env n f (C b') ph ser anc) x' := by
  suffices hs : tame (process env n f (C b') ph ser anc) from ⟨_, endsAs_iff.2 ⟨hs, rfl⟩⟩
  replace hx := hx.tame
  replace hy := hy.tame
  induction p generalizing n f anc C with
  | nil =>
    rcases h.level ha with ⟨_, h0⟩ | ⟨_, _, _, _, _, _, _, hp, _⟩
    · rw [h0 b' hb']; exact hy
    · cases hp
  | cons s p ih =>
    rcases h.level ha with ⟨h0, _⟩ | ⟨s', p', n', f', anc', C', K, hp, ha', hg, hCK, hlev⟩
    · cases h0
    · cases hp
      rw [hCK] at hx ⊢
      cases hlev with
      | never hn => exact absurd hx (hn _ ⟨b, hb, rfl⟩)
      | stuck cls es ht _ =>
        rcases ht with ht | ht
        · exact ht _ ⟨b', hb', rfl⟩
        · exact (ht _ ⟨b', hb', rfl⟩).2 (ih hg ha' ((ht _ ⟨b, hb, rfl⟩).1 hx))
      | opens W S O hole ho =>
        have h3 := ih hg ha' ((ho _ ⟨b, hb, rfl⟩).1 hx)
        have h4 := (ho _ ⟨b', hb', rfl⟩).2 h3
        rw [h4]
        split <;> trivial

end

/-- An order with a list of lines: the quantity of one line is the part. -/
theorem Ex.quantity_gap : ∃ C, C (.int 1) = .dict [(.str c!"id", .int 7), (.str c!"lines",
      .list [.dict [(.str c!"n", .int 2)], .dict [(.str c!"n", .int 1)]])] ∧
    Gap Ex.env .inbound false (fun _ => True) 4
      (.structure {} [(c!"id", Ex.int), (c!"lines", .sequence {} (.structure {} [(c!"n", Ex.int)] true []) none none false)] true [])
      [c!"order"] C [.key (.str c!"lines"), .idx 1, .key (.str c!"n")] 1 Ex.int
      [c!"order", c!".lines", idxStep 1, c!".n"] := by
  refine ⟨_, ?_, .member [(.str c!"id", .int 7)] [] rfl (by decide) (by decide) ⟨_, rfl, rfl, rfl⟩ (by simp) (by simp)
    (.item [.dict [(.str c!"n", .int 2)]] [] rfl rfl
      (.member [] [] rfl (by decide) (by decide) ⟨_, rfl, rfl, rfl⟩ (by simp) (by simp) .here))⟩
  rfl

/-- The schema of the example accepts the order. -/
def Ex.purchase : Field :=
  .structure {} [(c!"id", Ex.int), (c!"lines", .sequence {} (.structure {} [(c!"n", Ex.int)] true []) none none false)] true []

example (i : Int) (hi : process Ex.env 1 Ex.int (.int i) .inbound false [c!"order", c!".lines", idxStep 1, c!".n"] = .ok (.int i)) :
    process Ex.env 4 Ex.purchase (.dict [(.str c!"id", .int 7), (.str c!"lines",
      .list [.dict [(.str c!"n", .int 2)], .dict [(.str c!"n", .int i)]])]) .inbound false [c!"order"] =
    .ok (.dict [(.str c!"id", .int 7), (.str c!"lines",
      .list [.dict [(.str c!"n", .int 2)], .dict [(.str c!"n", .int i)]])]) := by
  have hw : process Ex.env 4 Ex.purchase (.dict [(.str c!"id", .int 7), (.str c!"lines",
      .list [.dict [(.str c!"n", .int 2)], .dict [(.str c!"n", .int 1)]])]) .inbound false [c!"order"] =
    .ok (.dict [(.str c!"id", .int 7), (.str c!"lines",
      .list [.dict [(.str c!"n", .int 2)], .dict [(.str c!"n", .int 1)]])]) := rfl
  have h := C85_replace (env := Ex.env) (ph := .inbound) (ser := false) (D := fun _ => True) (f := Ex.purchase) (anc := [c!"order"])
    (.member [(.str c!"id", .int 7)] [] rfl (by decide) (by decide) ⟨_, rfl, rfl, rfl⟩ (by simp) (by simp)
      (.item [.dict [(.str c!"n", .int 2)]] [] rfl rfl
        (.member [] [] rfl (by decide) (by decide) ⟨_, rfl, rfl, rfl⟩ (by simp) (by simp) .here)))
    (by simp) (b := .int 1) trivial trivial hw hi
  exact h.trans (by simp [replaced])

/-- A quantity that is no integer is reported at its place, and the rest of the order is shown as before. -/
example : ∃ e', process Ex.env 4 Ex.purchase (.dict [(.str c!"id", .int 7), (.str c!"lines",
      .list [.dict [(.str c!"n", .int 2)], .dict [(.str c!"n", .list [])]])]) .inbound false [c!"order"] = .error (.structural e') ∧
    RevealsAt (.exc e'.cls e'.identity e'.errors e'.struct e'.value) [.key (.str c!"id")] (.int 7) :=
  ⟨_, rfl, .step (.error (.key (List.mem_cons_self ..))) .here⟩

/-- C85. Items that have to be distinct are not independent: the same change of the second item leaves the
outcome without the first. -/
theorem C85_unique :
    process Ex.env 2 (.sequence {} Ex.int none none true) (.list [.int 1, .int 2]) .inbound false [c!"s"] =
        .ok (.list [.int 1, .int 2]) ∧
      process Ex.env 1 Ex.int (.int 1) .inbound false [c!"s", idxStep 1] = .ok (.int 1) ∧
      ∃ e, process Ex.env 2 (.sequence {} Ex.int none none true) (.list [.int 1, .int 1]) .inbound false [c!"s"] =
        .error (.structural e) ∧ e.struct = .none :=
  ⟨rfl, rfl, _, rfl, rfl⟩

end Scheme
