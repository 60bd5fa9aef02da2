import Verif.Spec.Reordered
import Verif.Props.Reorder
import Verif.Props.Asked

/-! C101: the order of the entries of a subject does not matter to interpolation. -/

namespace Scheme

theorem AgreeUpTo.bind {α β : Type} {R : α → α → Prop} {S : β → β → Prop} {p q : Except Exn α} {f g : α → Except Exn β} (h : AgreeUpTo R p q)
    (hf : ∀ w w', R w w' → AgreeUpTo S (f w) (g w')) : AgreeUpTo S (p >>= f) (q >>= g) := by
  rcases h with ⟨e, e', he, he', rfl, rfl⟩ | ⟨rfl, rfl⟩ | ⟨w, w', rfl, rfl, hr⟩
  · exact .inl ⟨e, e', he, he', rfl, rfl⟩
  · exact .inr (.inl ⟨rfl, rfl⟩)
  · exact hf w w' hr

theorem AgreeUpTo.map {α β : Type} {R : α → α → Prop} {S : β → β → Prop} {p q : Except Exn α} {f : α → β} (h : AgreeUpTo R p q)
    (hf : ∀ w w', R w w' → S (f w) (f w')) : AgreeUpTo S (p.map f) (q.map f) := by
  rcases h with ⟨e, e', he, he', rfl, rfl⟩ | ⟨rfl, rfl⟩ | ⟨w, w', rfl, rfl, hr⟩
  · exact .inl ⟨e, e', he, he', rfl, rfl⟩
  · exact .inr (.inl ⟨rfl, rfl⟩)
  · exact .inr (.inr ⟨_, _, rfl, rfl, hf w w' hr⟩)

theorem AgreeUpTo.refl {α : Type} {R : α → α → Prop} (hR : ∀ w, R w w) (p : Except Exn α) : AgreeUpTo R p p := by
  match p with
  | .ok w => exact .inr (.inr ⟨w, w, rfl, rfl, hR w⟩)
  | .error e =>
    by_cases he : e = .undefinedParameter
    · subst he; exact .inr (.inl ⟨rfl, rfl⟩)
    · exact .inl ⟨e, e, he, he, rfl, rfl⟩

theorem AgreeUpTo.done {α : Type} {R : α → α → Prop} {w w' : α} (h : R w w') : AgreeUpTo R (.ok w : Except Exn α) (.ok w') :=
  .inr (.inr ⟨w, w', rfl, rfl, h⟩)

theorem AgreeUpTo.trans {α : Type} {R S T : α → α → Prop} {p q r : Except Exn α} (h1 : AgreeUpTo R p q) (h2 : AgreeUpTo S q r)
    (hT : ∀ a b c, R a b → S b c → T a c) : AgreeUpTo T p r := by
  rcases h1 with ⟨e, e', he, he', rfl, rfl⟩ | ⟨rfl, rfl⟩ | ⟨w, w', rfl, rfl, hr⟩
  · rcases h2 with ⟨_, e2, _, he2, _, rfl⟩ | ⟨h, _⟩ | ⟨_, _, h, _⟩
    · exact .inl ⟨e, e2, he, he2, rfl, rfl⟩
    · exact absurd (Except.error.inj h) he'
    · cases h
  · rcases h2 with ⟨_, e2, h, _, h', _⟩ | ⟨_, rfl⟩ | ⟨_, _, h, _⟩
    · exact absurd (Except.error.inj h').symm h
    · exact .inr (.inl ⟨rfl, rfl⟩)
    · cases h
  · rcases h2 with ⟨_, _, _, _, h, _⟩ | ⟨h, _⟩ | ⟨_, x, h, rfl, hs⟩
    · cases h
    · cases h
    · cases h; exact .inr (.inr ⟨w, x, rfl, rfl, hT _ _ _ hr hs⟩)

theorem AgreeUpTo.entry {S : Val → Val → Prop} {p q : Except Exn Val} (h : AgreeUpTo S p q) :
    AgreeUpTo (fun o o' => (o = none ∧ o' = none) ∨ ∃ w w', o = some w ∧ o' = some w' ∧ S w w') (notUndefined p) (notUndefined q) := by
  rcases h with ⟨e, e', he, he', rfl, rfl⟩ | ⟨rfl, rfl⟩ | ⟨w, w', rfl, rfl, hr⟩
  · refine .inl ⟨e, e', he, he', ?_, ?_⟩
    · cases e <;> first | rfl | exact absurd rfl he
    · cases e' <;> first | rfl | exact absurd rfl he'
  · exact .done (.inl ⟨rfl, rfl⟩)
  · exact .done (.inr ⟨w, w', rfl, rfl, hr⟩)

theorem notUndefined_error {p : Except Exn Val} {e : Exn} (h : notUndefined p = .error e) : e ≠ .undefinedParameter := by
  rintro rfl
  match p with
  | .ok w => cases h
  | .error e => cases e <;> cases h

theorem interpolateEntries_error {env : Env} {r : Ext} {value : Field} : ∀ {d : List (Val × Val)} {e : Exn}, interpolateEntries env r value d = .error e →
    e ≠ .undefinedParameter
  | [], _, h => by cases h
  | (k, v) :: d, e, h => by
    unfold interpolateEntries at h
    cases hx : notUndefined (extractChild env r value v) with
    | error e' => rw [hx] at h; cases h; exact notUndefined_error hx
    | ok x =>
      rw [hx] at h
      cases hy : interpolateEntries env r value d with
      | error e' =>
        have h' : (Except.error e' : Except Exn (List (Val × Val))) = .error e := by
          have := h; simp only [hy] at this; exact this
        cases h'
        exact interpolateEntries_error hy
      | ok y =>
        have h' : (Except.ok (keepEntry k x y) : Except Exn (List (Val × Val))) = .error e := by
          have := h; simp only [hy] at this; exact this
        cases h'

theorem keepEntry_perm {k : Val} {o : Option Val} {d d' : List (Val × Val)} (h : d.Perm d') : (keepEntry k o d).Perm (keepEntry k o d') := by
  cases o with
  | none => exact h
  | some w => exact h.cons _

theorem entries_perm {env : Env} {r : Ext} {value : Field} {d e : List (Val × Val)} (h : d.Perm e) :
    AgreeUpTo List.Perm (interpolateEntries env r value d) (interpolateEntries env r value e) := by
  induction h with
  | nil => exact .refl (fun _ => .refl _) _
  | cons x _ ih =>
    obtain ⟨k, v⟩ := x
    refine .bind (.refl (R := Eq) (fun _ => rfl) _) fun o o' ho => ?_
    subst ho
    exact .bind ih fun y y' hy => .done (keepEntry_perm hy)
  | swap x y l =>
    obtain ⟨k, v⟩ := x
    obtain ⟨k', v'⟩ := y
    unfold interpolateEntries
    unfold interpolateEntries
    cases hx : notUndefined (extractChild env r value v) with
    | error e =>
      cases hy : notUndefined (extractChild env r value v') with
      | error e' => exact .inl ⟨e', e, notUndefined_error hy, notUndefined_error hx, rfl, rfl⟩
      | ok o' => exact .inl ⟨e, e, notUndefined_error hx, notUndefined_error hx, rfl, rfl⟩
    | ok o =>
      cases hy : notUndefined (extractChild env r value v') with
      | error e' => exact .inl ⟨e', e', notUndefined_error hy, notUndefined_error hy, rfl, rfl⟩
      | ok o' =>
        cases hl : interpolateEntries env r value l with
        | error e => exact .inl ⟨e, e, interpolateEntries_error hl, interpolateEntries_error hl, rfl, rfl⟩
        | ok w =>
          refine .done (w := keepEntry k' o' (keepEntry k o w)) (w' := keepEntry k o (keepEntry k' o' w)) ?_
          cases o <;> cases o' <;> first | exact .refl _ | exact .swap ..
  | trans _ _ ih1 ih2 => exact .trans ih1 ih2 fun _ _ _ => .trans

section
variable {env : Env} {r : Ext}

theorem child_reordered {f : Field} {v v' : Val} (h : ∀ g, AgreeUpTo SameData (r g v) (r g v')) :
    AgreeUpTo SameData (extractChild env r f v) (extractChild env r f v') := by
  unfold extractChild
  cases resolve env f with
  | none => exact .refl .refl _
  | some g => exact h g

theorem items_reordered {item : Field} : ∀ {l l' : List Val}, (∀ v ∈ l, ∀ v', SameData v v' → ∀ g, AgreeUpTo SameData (r g v) (r g v')) → SameItems l l' →
    AgreeUpTo SameItems (interpolateItems env r item l) (interpolateItems env r item l')
  | _, _, _, .nil => .done .nil
  | _, _, h, .cons hv hl => by
    refine .bind (child_reordered (h _ List.mem_cons_self _ hv)) fun x x' hx => ?_
    exact .bind (items_reordered (fun v hm => h v (List.mem_cons_of_mem _ hm)) hl) fun y y' hy => .done (.cons hx hy)

theorem tuple_reordered : ∀ {fs : List Field} {l l' : List Val}, (∀ v ∈ l, ∀ v', SameData v v' → ∀ g, AgreeUpTo SameData (r g v) (r g v')) → SameItems l l' →
    AgreeUpTo SameItems (interpolateSlots env r fs l) (interpolateSlots env r fs l')
  | [], _, _, _, _ => .done .nil
  | _ :: _, _, _, _, .nil => 
      .inl ⟨.py .indexError, .py .indexError, (by intro h; cases h), (by intro h; cases h), rfl, rfl⟩
  | _ :: _, _, _, h, .cons hv hl => by
    refine .bind (child_reordered (h _ List.mem_cons_self _ hv)) fun x x' hx => ?_
    exact .bind (tuple_reordered (fun v hm => h v (List.mem_cons_of_mem _ hm)) hl) fun y y' hy => .done (.cons hx hy)

theorem entries_reordered {value : Field} : ∀ {d d' : List (Val × Val)}, (∀ e ∈ d, ∀ v', SameData e.2 v' → ∀ g, AgreeUpTo SameData (r g e.2) (r g v')) →
    SameEntries d d' → AgreeUpTo SameEntries (interpolateEntries env r value d) (interpolateEntries env r value d')
  | _, _, _, .nil => .done .nil
  | _, _, h, .cons hv hd => by
    refine .bind (child_reordered (h _ List.mem_cons_self _ hv)).entry fun x x' hx => ?_
    refine .bind (entries_reordered (fun e hm => h e (List.mem_cons_of_mem _ hm)) hd) fun y y' hy => .done ?_
    rcases hx with ⟨rfl, rfl⟩ | ⟨w, w', rfl, rfl, hx⟩
    · exact hy
    · exact .cons hx hy

/-- The entries of two dicts with the same data under a name. -/
def GetSame (d d' : List (Val × Val)) : Prop :=
  ∀ name, (dictGet d (.str name) = none ∧ dictGet d' (.str name) = none) ∨
    ∃ x x', dictGet d (.str name) = some x ∧ dictGet d' (.str name) = some x' ∧ SameData x x'

theorem members_reordered {d d' : List (Val × Val)} (hg : GetSame d d') (h : ∀ e ∈ d, ∀ v', SameData e.2 v' → ∀ g, AgreeUpTo SameData (r g e.2) (r g v')) :
    ∀ {defn : List (Str × Field)}, AgreeUpTo SameEntries (interpolateMembers env r d defn) (interpolateMembers env r d' defn)
  | [] => .done .nil
  | (name, f) :: defn => by
    have hrest := members_reordered hg h (defn := defn)
    unfold interpolateMembers
    rcases hg name with ⟨h1, h2⟩ | ⟨x, x', h1, h2, hx⟩
    · rw [h1, h2]; exact hrest
    · rw [h1, h2]
      obtain ⟨k, hm, _⟩ := dictGet_mem h1
      refine .bind (child_reordered (h _ hm _ hx)).entry fun y y' hy => ?_
      refine .bind hrest fun z z' hz => .done ?_
      rcases hy with ⟨rfl, rfl⟩ | ⟨w, w', rfl, rfl, hw⟩
      · exact hz
      · exact .cons hw hz

theorem identities_reordered {d d' : List (Val × Val)} (hg : ∀ k, (dictGet d k).isSome = (dictGet d' k).isSome) :
    ∀ variants, interpolateIdentities d variants = interpolateIdentities d' variants
  | [] => rfl
  | (i, _) :: vs => by
    have ih := identities_reordered hg vs
    have := hg i
    unfold interpolateIdentities
    cases h1 : dictGet d i <;> cases h2 : dictGet d' i <;> simp_all

theorem SameData.truth {v w : Val} (h : SameData v w) : v.truthy = w.truthy := by
  cases h with
  | refl => rfl
  | list h => cases h <;> rfl
  | tuple h => cases h <;> rfl
  | dict e hp h =>
    have hl := hp.length_eq.trans (SameEntries.len h)
    rename_i d d'
    cases d <;> cases d' <;> first | rfl | cases hl

theorem variantGet_same {id id' : Val} (h : SameData id id') : ∀ variants, variantGet variants id = variantGet variants id'
  | [] => rfl
  | (k, d) :: vs => by unfold variantGet; rw [h.eqL k, variantGet_same h vs]

theorem AgreeUpTo.stuck {α : Type} {R : α → α → Prop} (e : Exn) (he : e ≠ .undefinedParameter) : AgreeUpTo R (.error e : Except Exn α) (.error e) :=
  .inl ⟨e, e, he, he, rfl, rfl⟩

theorem dict_found {d e d' : List (Val × Val)} (hp : d.Perm e) (h : SameEntries e d') (k : Val) : (dictGet d k).isSome = (dictGet d' k).isSome := by
  rw [Bool.eq_iff_iff, dictGet_isSome, dictGet_isSome]
  constructor
  · rintro ⟨⟨a, b⟩, hm, he⟩
    obtain ⟨b', hm', _⟩ := h.mem (hp.mem_iff.1 hm)
    exact ⟨_, hm', he⟩
  · rintro ⟨⟨a, b⟩, hm, he⟩
    obtain ⟨b', hm', _⟩ := h.mem' hm
    exact ⟨_, hp.mem_iff.2 hm', he⟩

theorem body_reordered {f : Field} {v v' : Val} (ho : KeyedOnce v) (hs : SameData v v')
    (h : ∀ w w' g, KeyedOnce w → SameData w w' → AgreeUpTo SameData (r g w) (r g w')) :
    AgreeUpTo SameData (interpolateBody env r f v) (interpolateBody env r f v') := by
  cases hs with
  | refl => exact .refl .refl _
  | list hl =>
    rename_i l l'
    have hk : ∀ v ∈ l, KeyedOnce v := by
      cases ho with
      | list h => exact h
      | other h => exact absurd rfl (h _)
    cases f with
    | sequence c item a b q => exact .map (items_reordered (fun v hv v' hs g => h v v' g (hk v hv) hs) hl) fun _ _ => .list
    | tuple c fs => exact .map (tuple_reordered (fun v hv v' hs g => h v v' g (hk v hv) hs) hl) fun _ _ => .tuple
    | leaf => exact .done (.list hl)
    | union => exact .refl .refl _
    | _ => exact .stuck _ (by intro h; cases h)
  | tuple hl =>
    rename_i l l'
    have hk : ∀ v ∈ l, KeyedOnce v := by
      cases ho with
      | tuple h => exact h
      | other _ h => exact absurd rfl (h _)
    cases f with
    | sequence c item a b q => exact .map (items_reordered (fun v hv v' hs g => h v v' g (hk v hv) hs) hl) fun _ _ => .list
    | tuple c fs => exact .map (tuple_reordered (fun v hv v' hs g => h v v' g (hk v hv) hs) hl) fun _ _ => .tuple
    | leaf => exact .done (.tuple hl)
    | union => exact .refl .refl _
    | _ => exact .stuck _ (by intro h; cases h)
  | dict e hp he =>
    rename_i d d'
    have hk : (d.map (·.1)).Nodup ∧ ∀ e ∈ d, KeyedOnce e.2 := by
      cases ho with
      | dict h1 h2 => exact ⟨h1, h2⟩
      | other _ _ h => exact absurd rfl (h _)
    have hc : ∀ e ∈ d, ∀ v', SameData e.2 v' → ∀ g, AgreeUpTo SameData (r g e.2) (r g v') := fun e he v' hs g => h _ _ g (hk.2 e he) hs
    have hg : GetSame d d' := fun name => by
      rw [dictGet_str_eq_given, dictGet_str_eq_given]
      exact given_reorder hk.1 hp he name
    have whole : ∀ {x y : List (Val × Val)}, SameEntries x y → SameData (.dict x) (.dict y) := fun h => .dict _ (.refl _) h
    cases f with
    | map c key value req =>
      refine .map (R := fun x y => ∃ e, x.Perm e ∧ SameEntries e y) ?_ fun x y ⟨e, h1, h2⟩ => .dict e h1 h2
      exact .trans (entries_perm hp) (entries_reordered (fun x hx => hc x (hp.mem_iff.2 hx)) he) fun _ b _ h1 h2 => ⟨b, h1, h2⟩
    | «structure» c defn st ko => exact .map (members_reordered hg hc) fun _ _ => whole
    | poly c disc variants st ko =>
      unfold interpolateBody
      dsimp only
      rcases hg (disc.name.getD []) with ⟨h1, h2⟩ | ⟨id, id', h1, h2, hid⟩
      · rw [h1, h2]; exact .stuck _ (by intro h; cases h)
      · rw [h1, h2]
        dsimp only
        rw [← hid.truth]
        by_cases ht : id.truthy = true
        · rw [if_pos ht, if_pos ht]
          unfold variantAt
          rw [← hid.hash, ← variantGet_same hid]
          refine .bind (.refl (R := Eq) (fun _ => rfl) _) fun defn defn' hd => ?_
          subst hd
          exact .map (members_reordered hg hc) fun _ _ => whole
        · rw [if_neg ht, if_neg ht, identities_reordered (dict_found hp he)]
          exact .refl .refl _
    | leaf => exact .done (.dict e hp he)
    | union => exact .refl .refl _
    | _ => exact .stuck _ (by intro h; cases h)

theorem leaf_reordered {t : Templates} (ht : OrderlySurrogates t) {k : Leaf} {v v' : Val} (hs : SameData v v') :
    AgreeUpTo SameData (interpolateLeaf env t k v) (interpolateLeaf env t k v') := by
  have hin : ∀ vals, pyIn v vals = pyIn v' vals := pyIn_same hs
  cases hs with
  | refl => exact .refl .refl _
  | list hl =>
    rename_i l l'
    cases k with
    | enumeration vals m =>
      unfold interpolateLeaf
      dsimp only
      rw [← hin vals]
      by_cases hp : pyIn (.list l) vals = true
      · rw [if_pos hp, if_pos hp]; exact .done (.list hl)
      · rw [if_neg hp, if_neg hp]; exact .stuck (.py .valueError) (by intro h; cases h)
    | _ => exact .stuck (.py .valueError) (by intro h; cases h)
  | tuple hl =>
    rename_i l l'
    cases k with
    | enumeration vals m =>
      unfold interpolateLeaf
      dsimp only
      rw [← hin vals]
      by_cases hp : pyIn (.tuple l) vals = true
      · rw [if_pos hp, if_pos hp]; exact .done (.tuple hl)
      · rw [if_neg hp, if_neg hp]; exact .stuck (.py .valueError) (by intro h; cases h)
    | _ => exact .stuck (.py .valueError) (by intro h; cases h)
  | dict e hp he =>
    rename_i d d'
    cases k with
    | enumeration vals m =>
      unfold interpolateLeaf
      dsimp only
      rw [← hin vals]
      by_cases hp' : pyIn (.dict d) vals = true
      · rw [if_pos hp', if_pos hp']; exact .done (.dict e hp he)
      · rw [if_neg hp', if_neg hp']; exact .stuck (.py .valueError) (by intro h; cases h)
    | surrogate vs => exact ht _ _ (.dict e hp he)
    | _ => exact .stuck (.py .valueError) (by intro h; cases h)

end

/-- C101: interpolating subjects that differ only in the order of dict entries gives results that differ only in that way, or fails
for both; and lacks a parameter for both or for neither. -/
theorem C101_reordered {env : Env} {t : Templates} (ht : OrderlySurrogates t) : ∀ (n : Nat) (f : Field) {v v' : Val}, KeyedOnce v → SameData v v' →
    AgreeUpTo SameData (interpolate env t n f v) (interpolate env t n f v')
  | 0, _, _, _, _, _ => .stuck (.py .recursionError) (by intro h; cases h)
  | n + 1, f, v, v', ho, hs => by
    have ih : ∀ w w' g, KeyedOnce w → SameData w w' → AgreeUpTo SameData (interpolate env t n g w) (interpolate env t n g w') :=
      fun w w' g ho hs => C101_reordered ht n g ho hs
    by_cases he : v = v'
    · subst he; exact .refl .refl _
    have hn : v.isNone = false := by cases hs <;> first | rfl | exact absurd rfl he
    have hn' : v'.isNone = false := by rw [← hs.isNone]; exact hn
    have hstr : v.isStr = false := by cases hs <;> first | rfl | exact absurd rfl he
    have hstr' : v'.isStr = false := by cases hs <;> first | rfl | exact absurd rfl he
    have container : ∀ {g}, (∀ w, w.isNone = false → w.isStr = false → interpolateStep env t (interpolate env t n) g w = interpolateBody env (interpolate env t n) g w) →
        AgreeUpTo SameData (interpolate env t (n + 1) g v) (interpolate env t (n + 1) g v') := by
      intro g hg
      show AgreeUpTo SameData (interpolateStep env t (interpolate env t n) g v) (interpolateStep env t (interpolate env t n) g v')
      rw [hg v hn hstr, hg v' hn' hstr']
      exact body_reordered ho hs ih
    cases f with
    | leaf c k =>
      show AgreeUpTo SameData (if v.isNone then _ else _) (if v'.isNone then _ else _)
      rw [hn, hn']
      exact leaf_reordered ht hs
    | undef i => exact .stuck (.py .attributeError) (by intro h; cases h)
    | _ =>
      refine container fun w h1 h2 => ?_
      cases w <;> first | rfl | exact absurd h1 Bool.noConfusion | exact absurd h2 Bool.noConfusion

/-- C101: in particular the one succeeds iff the other does. -/
theorem C101_succeeds {env : Env} {t : Templates} (ht : OrderlySurrogates t) (n : Nat) (f : Field) {v v' w : Val} (ho : KeyedOnce v)
    (hs : SameData v v') (h : interpolate env t n f v = .ok w) : ∃ w', interpolate env t n f v' = .ok w' ∧ SameData w w' := by
  rcases C101_reordered (env := env) ht n f ho hs with ⟨e, _, _, _, h1, _⟩ | ⟨h1, _⟩ | ⟨x, x', h1, h2, hx⟩
  · rw [h1] at h; cases h
  · rw [h1] at h; cases h
  · rw [h1] at h; cases h; exact ⟨x', h2, hx⟩

/-- C101: a structure decides the order of its members, so that reordering its subject changes nothing at that level. -/
theorem C101_members {env : Env} {t : Templates} (n : Nat) {c : Common} {defn : List (Str × Field)} {st : Bool} {ko : List Str}
    {d d' : List (Val × Val)} (hd : (d.map (·.1)).Nodup) (hp : d.Perm d') :
    interpolate env t n (.structure c defn st ko) (.dict d) = interpolate env t n (.structure c defn st ko) (.dict d') := by
  cases n with
  | zero => rfl
  | succ n =>
    have hg : ∀ name, dictGet d (.str name) = dictGet d' (.str name) := by
      intro name
      rw [dictGet_str_eq_given, dictGet_str_eq_given]
      have hd' : (d'.map (·.1)).Nodup := (hp.map _).nodup_iff.1 hd
      cases hx : given d name with
      | some x => exact (given_of_mem_str hd' (hp.mem_iff.1 (given_mem_str hx))).symm
      | none =>
        cases hy : given d' name with
        | none => rfl
        | some y => rw [given_of_mem_str hd (hp.mem_iff.2 (given_mem_str hy))] at hx; cases hx
    have hm : ∀ defn, interpolateMembers env (interpolate env t n) d defn = interpolateMembers env (interpolate env t n) d' defn := by
      intro defn
      induction defn with
      | nil => rfl
      | cons x r ih => obtain ⟨name, f⟩ := x; unfold interpolateMembers; rw [hg name, ih]
    show (interpolateMembers env (interpolate env t n) d defn).map Val.dict = (interpolateMembers env (interpolate env t n) d' defn).map Val.dict
    rw [hm]

namespace Ex

theorem engine_orderly : OrderlySurrogates Ex.engine := fun _ _ _ => .stuck (.py .valueError) (by intro h; cases h)

/-- A map of integers. -/
def tally : Field := .map {} none Ex.int []

/-- `{'x': '${a}', 'y': '${b}', 'z': 3}` and the same in another order. -/
def tallied : Val := .dict [(.str c!"x", .str c!"${a}"), (.str c!"y", .str c!"${b}"), (.str c!"z", .int 3)]
def tallied' : Val := .dict [(.str c!"z", .int 3), (.str c!"x", .str c!"${a}"), (.str c!"y", .str c!"${b}")]

theorem tallied_once : KeyedOnce Ex.tallied := by
  refine .dict (by simp) fun e he => ?_
  simp only [List.mem_cons, List.not_mem_nil, or_false] at he
  rcases he with rfl | rfl | rfl <;>
    exact .other (by intro l h; cases h) (by intro l h; cases h) (by intro l h; cases h)

theorem tallied_same : SameData Ex.tallied Ex.tallied' :=
  .dict _ ((List.Perm.swap _ _ _).cons _ |>.trans (.swap _ _ _)) (.refl' _)

end Ex

/-- The results have the order of the subjects. -/
example : interpolate Ex.env Ex.engine 5 Ex.tally Ex.tallied = .ok (.dict [(.str c!"x", .int 5), (.str c!"z", .int 3)]) ∧
    interpolate Ex.env Ex.engine 5 Ex.tally Ex.tallied' = .ok (.dict [(.str c!"z", .int 3), (.str c!"x", .int 5)]) := ⟨rfl, rfl⟩

example : ∃ w', interpolate Ex.env Ex.engine 5 Ex.tally Ex.tallied' = .ok w' ∧ SameData (.dict [(.str c!"x", .int 5), (.str c!"z", .int 3)]) w' :=
  C101_succeeds Ex.engine_orderly 5 Ex.tally Ex.tallied_once Ex.tallied_same rfl

/-- The members of a structure have the order of the schema. -/
example : interpolate Ex.env Ex.engine 5 Ex.order (.dict [(.str c!"t", .str c!"x"), (.str c!"n", .int 1)]) =
    interpolate Ex.env Ex.engine 5 Ex.order (.dict [(.str c!"n", .int 1), (.str c!"t", .str c!"x")]) :=
  C101_members 5 (by simp) (.swap _ _ _)

/-- C101: which failure is reported may depend on the order. -/
theorem C101_failure_differs : ∃ (env : Env) (t : Templates) (n : Nat) (f : Field) (d d' : List (Val × Val)) (e e' : Exn), OrderlySurrogates t ∧
    KeyedOnce (.dict d) ∧ d.Perm d' ∧ interpolate env t n f (.dict d) = .error e ∧ interpolate env t n f (.dict d') = .error e' ∧ e ≠ e' := by
  refine ⟨Ex.env, Ex.engine, 5, .map {} none (.sequence {} Ex.int none none false) [], [(.str c!"x", .int 1), (.str c!"y", .list [.list []])],
    [(.str c!"y", .list [.list []]), (.str c!"x", .int 1)], .cannotInterpolate, .py .valueError, Ex.engine_orderly, ?_, .swap _ _ _, rfl, rfl,
    (by intro h; cases h)⟩
  refine .dict (by simp) fun e he => ?_
  simp only [List.mem_cons, List.not_mem_nil, or_false] at he
  rcases he with rfl | rfl
  · exact .other (by intro l h; cases h) (by intro l h; cases h) (by intro l h; cases h)
  · refine .list fun v hv => ?_
    simp only [List.mem_cons, List.not_mem_nil, or_false] at hv
    subst hv
    exact .list fun v hv => by cases hv

end Scheme
