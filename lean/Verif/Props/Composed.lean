import Verif.Spec.Composed
import Verif.Props.Construct
import Verif.Props.Clone
import Verif.Props.Sendable
import Verif.Props.Extract
import Verif.Props.Access

/-! C84: schemas made by the constructors meet the conditions of the other claims. -/

namespace Scheme

/-- What the constructors establish. -/
def Sound (env : Env) : Field → Prop
  | .structure _ defn _ ko => (defn.map (·.1)).Nodup ∧ (visited defn ko).Nodup ∧ ∀ e ∈ defn, Named env e.2
  | .poly _ disc vs _ ko => ko = [] ∧ ∃ c k, disc = .leaf c k ∧ c.constant = .none ∧ ∀ v ∈ vs, v.1 ≠ .none ∧
      (v.2.map (·.1)).Nodup ∧ (∀ e ∈ v.2, Named env e.2) ∧
      ∃ a, v.2.lookup (disc.name.getD []) = some (.leaf { c with constant := v.1, aspects := a } k)
  | _ => True

/-- Conditions that do not depend on names and copied attributes, and hold of generated discriminators. -/
structure Parametric (Q : Field → Prop) : Prop where
  named : ∀ f nm, Q f → Q (f.setCommon fun c => { c with name := some nm })
  copied : ∀ c k a, Q (.leaf c k) → Q (.leaf { c with aspects := a } k)
  generated : ∀ on vals x a, Q (.leaf { name := some on, nonnull := true, required := true, constant := x, aspects := a } (.enumeration vals []))
  undef : ∀ s, Q (.undef s)

section
variable {env : Env} {d : Nat} {Q : Field → Prop}

theorem sound_named {f : Field} {nm : Str} (h : Sound env f) : Sound env (f.setCommon fun c => { c with name := some nm }) := by
  cases f <;> exact h

theorem child_setCommon {f g : Field} {φ : Common → Common} (h : Child env (f.setCommon φ) g) : Child env f g := by
  cases f <;> cases h
  · rename_i h; exact .item h
  · exact .key
  · rename_i h; exact .value h
  · rename_i h h'; exact .tuple h h'
  · rename_i h h'; exact .union h h'
  · rename_i h h'; exact .member h h'
  · exact .disc
  · rename_i h h' h''; exact .variant h' h h''

theorem composed_resolve (hE : ComposedDefs env d Q) {f g : Field} (hf : Composed env d Q f) (h : resolve env f = some g) :
    Composed env d Q g ∧ ∀ t, g ≠ .undef t := by
  cases f with
  | undef s => exact hE s g h
  | _ => cases h; exact ⟨hf, fun t => by simp⟩

/-- A field that was made, or named when stored. -/
def Placed (env : Env) (d : Nat) (Q : Field → Prop) (g : Field) : Prop :=
  ∃ f, Composed env d Q f ∧ (g = f ∨ ∃ nm, g = f.setCommon fun c => { c with name := some nm })

theorem resolve_setCommon {f : Field} {φ : Common → Common} (h : ∀ t, f ≠ .undef t) : resolve env (f.setCommon φ) = some (f.setCommon φ) := by
  cases f with
  | undef t => exact absurd rfl (h t)
  | _ => rfl

theorem resolve_self {f : Field} (h : ∀ t, f ≠ .undef t) : resolve env f = some f := by
  cases f with
  | undef t => exact absurd rfl (h t)
  | _ => rfl

theorem stored_of {f f' g : Field} {name : Str} (hE : ComposedDefs env d Q) (hf : Composed env d Q f) (h : StoredAs env name f f')
    (hg : resolve env f' = some g) : Placed env d Q g := by
  rcases h with ⟨h, rfl⟩ | ⟨x, hx, h⟩
  · rw [h] at hg; cases hg
  · obtain ⟨hc, hu⟩ := composed_resolve hE hf hx
    rcases h with ⟨-, -, -, rfl⟩ | ⟨-, rfl⟩
    · rw [resolve_self hu] at hg; cases hg
      exact ⟨_, hc, .inl rfl⟩
    · rw [resolve_setCommon hu] at hg; cases hg
      exact ⟨_, hc, .inr ⟨_, rfl⟩⟩

theorem named_of {f f' : Field} {name : Str} (hE : ComposedDefs env d Q) (hf : Composed env d Q f) (hn : name ≠ [])
    (h : StoredAs env name f f') : Named env f' := by
  intro g hg
  rcases h with ⟨h, rfl⟩ | ⟨x, hx, h⟩
  · rw [h] at hg; cases hg
  · obtain ⟨hc, hu⟩ := composed_resolve hE hf hx
    rcases h with ⟨nm, h1, h2, rfl⟩ | ⟨-, rfl⟩
    · rw [resolve_self hu] at hg; cases hg
      cases nm with
      | nil => exact absurd rfl h2
      | cons a s => exact ⟨a, s, h1⟩
    · rw [resolve_setCommon hu] at hg; cases hg
      cases name with
      | nil => exact absurd rfl hn
      | cons a s =>
        refine ⟨a, s, ?_⟩
        cases x with
        | undef t => exact absurd rfl (hu t)
        | _ => rfl

theorem keyOrder_visited {order : KeyOrder} {ko : List Str} {defn : List (Str × Field)} (h : keyOrderOf order = .ok ko)
    (ho : DistinctOrder order) (hd : (defn.map (·.1)).Nodup) : (visited defn ko).Nodup := by
  unfold visited
  split
  · exact hd
  · rename_i hne
    cases order with
    | none => cases h; exact absurd rfl hne
    | text s =>
      cases h
      split at hne
      · exact absurd rfl hne
      · rename_i hs
        rw [if_neg hs]
        exact ho
    | list l => cases h; exact ho
    | other => cases h

theorem mem_prevalidated {defn : List (Str × Field)} {e : Str × Field} (h : e ∈ prevalidated env defn) :
    ∃ f, (e.1, f) ∈ defn ∧ StoredAs env e.1 f e.2 := by
  induction defn with
  | nil => cases h
  | cons x r ih =>
    obtain ⟨k, f⟩ := x
    rw [prevalidated] at h
    rcases List.mem_cons.1 h with rfl | h
    · exact ⟨f, List.mem_cons_self .., storedAs_nameMember⟩
    · obtain ⟨f', h1, h2⟩ := ih h
      exact ⟨f', List.mem_cons_of_mem _ h1, h2⟩

theorem All2.right {α β : Type} {R : α → β → Prop} {l : List α} {m : List β} (h : All2 R l m) {b : β} (hb : b ∈ m) : ∃ a ∈ l, R a b := by
  induction h with
  | nil => cases hb
  | cons h1 _ ih =>
    rcases List.mem_cons.1 hb with rfl | hb
    · exact ⟨_, List.mem_cons_self .., h1⟩
    · obtain ⟨a, ha, h2⟩ := ih hb
      exact ⟨a, List.mem_cons_of_mem _ ha, h2⟩

theorem variant_nodup {on : Str} {disc : Field} {own common defn : List (Str × Field)} (h : VariantMembers env on disc own common defn)
    (h1 : (own.map (·.1)).Nodup) (h2 : (common.map (·.1)).Nodup) : (defn.map (·.1)).Nodup := by
  obtain ⟨extra, hk, hx⟩ := h.keys
  rw [hk]
  have h12 : (own.map (·.1) ++ (common.map (·.1)).filter (fun k => k ∉ own.map (·.1))).Nodup := by
    refine List.nodup_append.2 ⟨h1, h2.filter _, ?_⟩
    rintro a ha b hb rfl
    have := (List.mem_filter.1 hb).2
    simp only [decide_eq_true_eq] at this
    exact this ha
  rcases hx with ⟨rfl, _⟩ | ⟨rfl, ho, hc⟩
  · simpa using h12
  · refine List.nodup_append.2 ⟨h12, by simp, ?_⟩
    rintro a ha b hb rfl
    cases List.mem_singleton.1 hb
    rcases List.mem_append.1 ha with h | h
    · exact ho h
    · exact hc (List.mem_filter.1 h).1

/-- A member of a variant is the discriminator, or stored for a declared member. -/
theorem variant_member {on : Str} {disc : Field} {own common defn : List (Str × Field)} (h : VariantMembers env on disc own common defn)
    (h1 : (own.map (·.1)).Nodup) (h2 : (common.map (·.1)).Nodup) {e : Str × Field} (he : e ∈ defn) :
    e.2 = disc ∨ ∃ f, ((e.1, f) ∈ own ∨ (e.1, f) ∈ common) ∧ StoredAs env e.1 f e.2 := by
  have hl := lookup_of_mem (variant_nodup h h1 h2) he
  by_cases ho : e.1 = on
  · rw [ho, h.discriminator] at hl
    exact .inl (Option.some.inj hl).symm
  · cases hd : declaredMember own common e.1 with
    | none => rw [h.absent _ ho hd] at hl; cases hl
    | some f =>
      obtain ⟨g, hg, hs⟩ := h.present _ f ho hd
      rw [hg] at hl; cases hl
      refine .inr ⟨f, ?_, hs⟩
      unfold declaredMember at hd
      split at hd
      · rename_i hc; cases hd; exact .inr (lookup_mem hc)
      · exact .inl (lookup_mem hd)

/-- What the constructor makes of a polymorphic structure, with the conditions it meets. -/
theorem poly_made (hQ : Parametric Q) {c : Common} {variants : List (Val × List (Str × Field))} {common : List (Str × Field)} {on : On}
    {strict : Bool} {gen : Val} {f : Field} (hc : MemberKeys common) (hon : FitsOn Q (variants.map (·.1)) on)
    (h : newPolymorphic env d c variants common on strict .none gen = .ok f) :
    ∃ v cd k vs on', f = .poly { c with default := v } (.leaf cd k) vs strict [] ∧ cd.constant = .none ∧ cd.name = some on' ∧ on' ≠ [] ∧
      Q (.leaf cd k) ∧ All2 (fun a b => b.1 = a.1 ∧ a.1 ≠ .none ∧ (∀ al, Q (.leaf { cd with constant := a.1, aspects := al } k)) ∧
        VariantMembers env on' (discFor env (.leaf cd k) a.1) a.2 common b.2) variants vs := by
  have lift : ∀ {R : Val × List (Str × Field) → Val × List (Str × Field) → Prop} {P : Val → Prop} {l m}, All2 R l m → (∀ a ∈ l, P a.1) →
      All2 (fun a b => P a.1 ∧ R a b) l m := by
    intro R P l m h
    induction h with
    | nil => intro _; exact .nil
    | cons h1 _ ih => intro h2; exact .cons ⟨h2 _ (List.mem_cons_self ..), h1⟩ (ih fun a ha => h2 a (List.mem_cons_of_mem _ ha))
  have mono : ∀ {R R' : Val × List (Str × Field) → Val × List (Str × Field) → Prop} {l m}, (∀ a b, R a b → R' a b) → All2 R l m → All2 R' l m := by
    intro R R' l m hR h
    induction h with
    | nil => exact .nil
    | cons h1 _ ih => exact .cons (hR _ _ h1) ih
  cases on with
  | name s =>
    obtain ⟨ids, v, disc, vs, ko, h1, ⟨vals, rfl, hv⟩, rfl, hko, h3⟩ := C66_built env d c variants common hc.1 s strict .none gen f h
    cases hko
    have hs : s ≠ [] := by
      rintro rfl
      unfold newPolymorphic at h
      dsimp only at h
      obtain ⟨disc, hd, h⟩ := except_bind_eq_ok.1 h
      obtain ⟨ko, hko, h⟩ := except_bind_eq_ok.1 h
      simp only [discriminator] at hd
      split at hd
      · cases hd; cases h
      · cases hd
    refine ⟨v, _, _, vs, s, rfl, rfl, rfl, hs, hQ.generated _ _ _ _, mono ?_ (lift (P := fun x => x ≠ .none) h3 ?_)⟩
    · rintro a b ⟨h4, h5, h6⟩
      exact ⟨h5, h4, fun al => hQ.generated _ _ _ _, h6⟩
    · intro a ha
      have : a.1 ∈ ids.map .str := h1 ▸ List.mem_map_of_mem ha
      obtain ⟨t, _, ht⟩ := List.mem_map.1 this
      rw [← ht]; simp
  | field f0 =>
    obtain ⟨c0, k, rfl, hcon, hq, hids⟩ := hon
    obtain ⟨on', v, cd, vs, ko, h1, h2, h3, rfl, hko, h4⟩ := C66_built_field env d c variants common hc.1 c0 k strict .none gen f h
    cases hko
    have hcd : ∃ al, cd = { c0 with required := true, aspects := al } := by
      simp only [newPolymorphic, except_bind_eq_ok] at h
      obtain ⟨disc, hdisc, ko, hko, h⟩ := h
      simp only [discriminator, Field.common?] at hdisc
      have : ∃ al, disc = .leaf { c0 with required := true, aspects := al } k := by
        split at hdisc
        · rename_i hr
          cases hdisc
          exact ⟨c0.aspects, by rw [← hr]⟩
        · exact ⟨_, cloneWith_leaf hdisc⟩
      obtain ⟨al, rfl⟩ := this
      split at h
      · obtain ⟨vs', hvs', h⟩ := except_bind_eq_ok.1 h
        obtain ⟨v', hv'⟩ := withDefault_ok h
        have := hv' _ rfl
        simp only [Field.setCommon, Field.poly.injEq, Field.leaf.injEq] at this
        exact ⟨al, this.2.1.1⟩
      · cases h
    obtain ⟨al, rfl⟩ := hcd
    refine ⟨v, _, _, vs, on', rfl, hcon, h1, h2, hQ.copied _ _ _ hq, mono ?_ (lift (P := fun x => x ≠ .none ∧ Q (.leaf { c0 with required := true, constant := x } k)) h4 ?_)⟩
    · rintro a b ⟨⟨h4, h4'⟩, h5, h6⟩
      exact ⟨h5, h4, fun al => hQ.copied _ _ _ h4', h6⟩
    · intro a ha
      exact hids _ (List.mem_map_of_mem ha)

/-- A made field meets the conditions; so do its sub-fields. -/
theorem composed_sound (hQ : Parametric Q) (hE : ComposedDefs env d Q) {f : Field} (hf : Composed env d Q f) :
    (Q f ∧ Sound env f) ∧ ∀ g, Child env f g → Placed env d Q g ∨ ∃ c k, g = .leaf c k ∧ Q g := by
  cases hf with
  | leaf h => exact ⟨⟨h, trivial⟩, fun g hg => by cases hg⟩
  | sequence h h1 =>
    exact ⟨⟨h, trivial⟩, fun g hg => by cases hg; rename_i hg; exact .inl ⟨_, (composed_resolve hE h1 hg).1, .inl rfl⟩⟩
  | map h h1 h2 =>
    refine ⟨⟨h, trivial⟩, fun g hg => ?_⟩
    cases hg
    · exact .inl ⟨_, h1 _ rfl, .inl rfl⟩
    · rename_i hg; exact .inl ⟨_, (composed_resolve hE h2 hg).1, .inl rfl⟩
  | tuple h h1 =>
    exact ⟨⟨h, trivial⟩, fun g hg => by cases hg; rename_i hm hg; exact .inl ⟨_, (composed_resolve hE (h1 _ hm) hg).1, .inl rfl⟩⟩
  | union h h1 =>
    exact ⟨⟨h, trivial⟩, fun g hg => by cases hg; rename_i hm hg; exact .inl ⟨_, (composed_resolve hE (h1 _ hm) hg).1, .inl rfl⟩⟩
  | undef => exact ⟨⟨hQ.undef _, trivial⟩, fun g hg => by cases hg⟩
  | «structure» hk hm ho h hq =>
    unfold newStructure at h
    obtain ⟨ko, hko, h⟩ := except_bind_eq_ok.1 h
    obtain ⟨v, hv⟩ := withDefault_ok h
    have := hv _ rfl
    subst this
    refine ⟨⟨hq, ?_⟩, fun g hg => ?_⟩
    · have hn : ((prevalidated env _).map (·.1)).Nodup := (keys_prevalidated (env := env)).symm ▸ hk.1
      refine ⟨hn, keyOrder_visited hko ho hn, fun e he => ?_⟩
      obtain ⟨f0, h1, h2⟩ := mem_prevalidated he
      exact named_of hE (hm _ h1) (hk.2 _ h1) h2
    · cases hg
      rename_i hg1 hg2
      obtain ⟨f0, h1, h2⟩ := mem_prevalidated hg1
      exact .inl (stored_of hE (hm _ h1) h2 hg2)
  | poly hk hkc hm hmc hon h hq =>
    obtain ⟨v, cd, k, vs, on', rfl, hcon, hname, hne, hqd, hall⟩ := poly_made hQ hkc hon h
    have hnm : (Field.leaf cd k).name.getD [] = on' := by simp [Field.name, Field.common?, hname]
    refine ⟨⟨hq, rfl, cd, k, rfl, hcon, fun b hb => ?_⟩, fun g hg => ?_⟩
    · obtain ⟨a, ha, h1, h2, h3, h4⟩ := hall.right hb
      refine ⟨h1 ▸ h2, variant_nodup h4 (hk _ ha).1 hkc.1, fun e he => ?_, ?_⟩
      · rcases variant_member h4 (hk _ ha).1 hkc.1 he with h5 | ⟨f0, h5 | h5, h6⟩
        · rw [h5]
          rintro g ⟨⟩
          cases on' with
          | nil => exact absurd rfl hne
          | cons x s => exact ⟨x, s, hname⟩
        · exact named_of hE (hm _ ha _ h5) ((hk _ ha).2 _ h5) h6
        · exact named_of hE (hmc _ h5) (hkc.2 _ h5) h6
      · rw [hnm, h4.discriminator, h1]
        exact ⟨_, rfl⟩
    · cases hg
      · exact .inr ⟨_, _, rfl, hqd⟩
      · rename_i he hb hg
        obtain ⟨a, ha, h1, h2, h3, h4⟩ := hall.right hb
        rcases variant_member h4 (hk _ ha).1 hkc.1 he with h5 | ⟨f0, h5 | h5, h6⟩
        · simp only at h5
          subst h5
          cases hg
          exact .inr ⟨_, _, rfl, h3 _⟩
        · exact .inl (stored_of hE (hm _ ha _ h5) h6 hg)
        · exact .inl (stored_of hE (hmc _ h5) h6 hg)

theorem composed_everywhere (hQ : Parametric Q) (hE : ComposedDefs env d Q) {f : Field} (hf : Composed env d Q f) :
    Everywhere env (fun g => Q g ∧ Sound env g) f := by
  refine .of_closed (fun g => Placed env d Q g ∨ ∃ c k, g = .leaf c k ∧ Q g) (.inl ⟨f, hf, .inl rfl⟩) ?_ ?_
  · rintro g (⟨f, hf, rfl | ⟨nm, rfl⟩⟩ | ⟨c, k, rfl, h⟩)
    · exact (composed_sound hQ hE hf).1
    · obtain ⟨h1, h2⟩ := (composed_sound hQ hE hf).1
      exact ⟨hQ.named _ _ h1, sound_named h2⟩
    · exact ⟨h, trivial⟩
  · rintro g h (⟨f, hf, rfl | ⟨nm, rfl⟩⟩ | ⟨c, k, rfl, h⟩) hc
    · exact (composed_sound hQ hE hf).2 h hc
    · exact (composed_sound hQ hE hf).2 h (child_setCommon hc)
    · cases hc

end

theorem restrained_parametric (env : Env) : Parametric (Restrained env) where
  named f nm h := by
    obtain ⟨h1, h2⟩ := h
    refine ⟨fun c hc => ?_, ?_⟩
    · cases f <;> cases hc <;> (have h3 := h1 _ rfl; exact h3)
    · cases f with
      | leaf c k =>
        cases k <;> first | exact h2 | skip
        all_goals rename_i b
        all_goals cases b <;> exact h2
      | _ => exact h2
  copied c k a h := by
    obtain ⟨h1, h2⟩ := h
    refine ⟨fun c hc => ?_, ?_⟩
    · cases hc; have h3 := h1 _ rfl; exact h3
    · cases k <;> first | exact h2 | skip
      all_goals rename_i b
      all_goals cases b <;> exact h2
  generated on vals x a := ⟨fun c hc => (by cases hc; simp), fun h => (by simp at h)⟩
  undef s := ⟨fun c hc => (by cases hc), trivial⟩

theorem portable_parametric (env : Env) : Parametric (Portable env) where
  named f nm h := by
    refine ⟨(restrained_parametric env).named f nm h.1, ?_⟩
    have h2 := h.2
    cases f with
    | leaf c k => cases k <;> exact h2
    | _ => exact h2
  copied c k a h := by
    refine ⟨(restrained_parametric env).copied c k a h.1, ?_⟩
    have h2 := h.2
    cases k <;> exact h2
  generated on vals x a := ⟨(restrained_parametric env).generated on vals x a, trivial⟩
  undef s := ⟨(restrained_parametric env).undef s, trivial⟩

theorem settled_of {env : Env} {g : Field} (h : Restrained env g) (hs : Sound env g) : Settled env g := by
  refine ⟨h.1, ?_⟩
  have h2 := h.2
  cases g with
  | leaf c k =>
    cases k <;> first | exact h2 | skip
    all_goals rename_i b
    all_goals cases b <;> exact h2
  | «structure» c defn s ko => exact hs.2.1
  | poly c disc vs s ko =>
    obtain ⟨rfl, cd, k, rfl, hc, hv⟩ := hs
    refine ⟨rfl, rfl, fun i defn hm => ?_⟩
    obtain ⟨h3, h4, -, a, h5⟩ := hv _ hm
    exact ⟨h3, h4, _, h5, .inr ⟨cd, k, _, _, rfl, hc, rfl⟩⟩
  | _ => exact h2

theorem sends_of {env : Env} {g : Field} (h : Portable env g) (hs : Sound env g) : Sends env g := by
  obtain ⟨h1, h2⟩ := h
  cases g with
  | leaf c k => cases k <;> exact h2
  | «structure» c defn s ko => exact ⟨(h1.1 _ rfl).1, hs.2.1⟩
  | poly c disc vs s ko =>
    obtain ⟨rfl, cd, k, rfl, hc, hv⟩ := hs
    refine ⟨(h1.1 _ rfl).1, rfl, ⟨cd, k, rfl, h2 _ _ rfl⟩, fun i defn hm => ?_⟩
    obtain ⟨h3, h4, -, a, h5⟩ := hv _ hm
    exact ⟨h4, _, h5, .inr ⟨cd, k, _, _, rfl, hc, rfl⟩⟩
  | sequence c i a b u => exact ⟨(h1.1 _ rfl).1, h2⟩
  | tuple c fs => exact (h1.1 _ rfl).1
  | map c k v r => exact ⟨(h1.1 _ rfl).1, h2⟩
  | union c fs => trivial
  | undef s => trivial

/-- C84. What the constructors make is as C53 and the claims about descriptions, filters and edits ask: members are named, and
each variant of a polymorphic structure holds the discriminator with its identity for constant. -/
theorem C84_built (env : Env) (d : Nat) (Q : Field → Prop) (hQ : Parametric Q) (hE : ComposedDefs env d Q) (f : Field)
    (hf : Composed env d Q f) : Everywhere env (Built env) f ∧ Everywhere env GoodNames f := by
  have h := composed_everywhere hQ hE hf
  constructor
  · intro g hg
    obtain ⟨-, hs⟩ := h g hg
    cases g with
    | «structure» c defn s ko => exact hs.2.2
    | poly c disc vs s ko =>
      obtain ⟨-, cd, k, rfl, -, hv⟩ := hs
      refine ⟨⟨cd, k, rfl⟩, fun v hm => ?_⟩
      obtain ⟨-, -, h4, a, h5⟩ := hv v hm
      exact ⟨h4, _, _, h5, rfl, same_leaf (c := { cd with constant := v.1, aspects := a }) (c' := { cd with constant := v.1 }) ⟨rfl, rfl, rfl, rfl, rfl, rfl, rfl, rfl⟩ k⟩
    | _ => trivial
  · intro g hg
    obtain ⟨-, hs⟩ := h g hg
    cases g with
    | «structure» c defn s ko => exact hs.1
    | poly c disc vs s ko =>
      obtain ⟨-, cd, k, rfl, -, hv⟩ := hs
      intro v hm
      obtain ⟨-, h4, -, a, h5⟩ := hv v hm
      exact ⟨h4, _, _, h5⟩
    | _ => trivial

/-- C84. With the parameters C02 asks for, what the constructors make is as C02 asks. -/
theorem C84_settled (env : Env) (d : Nat) (hE : ComposedDefs env d (Restrained env)) (f : Field)
    (hf : Composed env d (Restrained env) f) : Everywhere env (Settled env) f := fun g hg =>
  have h := composed_everywhere (restrained_parametric env) hE hf g hg
  settled_of h.1 h.2

/-- C84. Processing with a schema made by the constructors: a second pass changes nothing. -/
theorem C84_again (env : Env) (hz : ZoneLaw env) (d : Nat) (hE : ComposedDefs env d (Restrained env)) (f : Field)
    (hf : Composed env d (Restrained env) f) (n : Nat) (v w : Val) (ser : Bool) (anc anc' : List Str)
    (h : process env n f v .inbound ser anc = .ok w) : process env n f w .inbound false anc' = .ok w :=
  C02_idempotent env hz n f (C84_settled env d hE f hf) v w ser anc anc' h

/-- C84. What a schema made by the constructors has read, it can write; read again, that gives what was read, wherever the
types lose nothing when written. -/
theorem C84_written (env : Env) (hz : ZoneLaw env) (d : Nat) (hE : ComposedDefs env d (Portable env)) (f : Field)
    (hf : Composed env d (Portable env) f) (n : Nat) (u v : Val) (ser : Bool) (a0 a1 a2 : List Str)
    (hv : process env n f u .inbound ser a0 = .ok v) :
    ∃ s, process env n f v .outbound true a1 = .ok s ∧
      ((∀ g w, Involves env .outbound f v g w → Faithful env g w) → process env n f s .inbound true a2 = .ok v) := by
  have he := composed_everywhere (portable_parametric env) hE hf
  have hs : Everywhere env (Settled env) f := fun g hg => settled_of (he g hg).1.1 (he g hg).2
  obtain ⟨s, h⟩ := C72_schema env hz n f hs (fun g hg => sends_of (he g hg).1 (he g hg).2) u v ser a0 a1 hv
  exact ⟨s, h, fun hF => C03_round_trip env hz n f hs u v s ser a0 a1 a2 hv hF h⟩

/-- C84. A clone of a schema made by the constructors behaves like the original. -/
theorem C84_clone (env : Env) (d : Nat) (Q : Field → Prop) (hQ : Parametric Q) (hE : ComposedDefs env d Q) (f : Field)
    (hf : Composed env d Q f) (n : Nat) (f' : Field) (h : clone env n f = .ok f') (m : Nat) (v : Val) (ph : Phase) (ser : Bool)
    (anc : List Str) : process env m f' v ph ser anc = process env m f v ph ser anc :=
  C53_behaves env n f f' (C84_built env d Q hQ hE f hf).1 h m v ph ser anc

/-! ### A case: shapes nested in shapes, discriminated by kind -/

/-- `Structure({'group': {'items': Sequence(Undefined('shape'))}, 'dot': {'at': Tuple((Integer(), Integer()))},
'*': {'label': Text()}}, polymorphic_on='kind')`; the placeholder is later defined by the structure itself. -/
def Ex.figureOf (env : Env) : Except Exn Field :=
  newPolymorphic env 2 {} [(.str c!"group", [(c!"items", .sequence {} (.undef 0) none none false)]),
    (.str c!"dot", [(c!"at", .tuple {} [.leaf {} (.integer none none), .leaf {} (.integer none none)])])]
    [(c!"label", .leaf {} (.text none none none true))] (.name c!"kind") true .none .none

def Ex.figure : Field :=
  match Ex.figureOf Ex.env with
  | .ok f => f
  | .error _ => .undef 0

def Ex.drawing : Env := { Ex.env with defs := fun s => if s = 0 then some Ex.figure else none }

theorem Ex.figure_made : Ex.figureOf Ex.drawing = .ok Ex.figure := rfl

theorem Ex.figure_composed : Composed Ex.drawing 2 (Portable Ex.drawing) Ex.figure := by
  have hleaf : ∀ k, k = Leaf.integer none none ∨ k = .text none none none true → Portable Ex.drawing (.leaf {} k) := by
    rintro k (rfl | rfl)
    · exact ⟨⟨fun c hc => (by cases hc; simp), trivial⟩, trivial⟩
    · exact ⟨⟨fun c hc => (by cases hc; simp), fun s h => (by cases h)⟩, trivial⟩
  refine .poly (on := .name _) ?_ ?_ ?_ ?_ trivial Ex.figure_made ?_
  · intro v hv
    simp only [List.mem_cons, List.not_mem_nil, or_false] at hv
    rcases hv with rfl | rfl <;> exact ⟨by simp, by simp⟩
  · exact ⟨by simp, by simp⟩
  · intro v hv e he
    simp only [List.mem_cons, List.not_mem_nil, or_false] at hv
    rcases hv with rfl | rfl <;> cases List.mem_singleton.1 he
    · exact .sequence ⟨⟨fun c hc => (by cases hc; simp), trivial⟩, fun h => (by cases h)⟩ .undef
    · refine .tuple ⟨⟨fun c hc => (by cases hc; simp), trivial⟩, trivial⟩ fun f hf => ?_
      simp only [List.mem_cons, List.not_mem_nil, or_false, or_self] at hf
      subst hf
      exact .leaf (hleaf _ (.inl rfl))
  · intro e he
    cases List.mem_singleton.1 he
    exact .leaf (hleaf _ (.inr rfl))
  · exact ⟨⟨fun c hc => (by cases hc; simp), trivial⟩, fun c k h => (by cases h; trivial)⟩

theorem Ex.figure_defs : ComposedDefs Ex.drawing 2 (Portable Ex.drawing) := by
  intro s g h
  by_cases hs : s = 0
  · subst hs
    cases h
    exact ⟨Ex.figure_composed, fun t h => (by cases h)⟩
  · simp [Ex.drawing, hs] at h

/-- A group with a dot in it is read, and written. -/
example : let v : Val := .dict [(.str c!"kind", .str c!"group"), (.str c!"items",
      .list [.dict [(.str c!"kind", .str c!"dot"), (.str c!"at", .list [.int 1, .int 2])]])]
    ∃ w, process Ex.drawing 6 Ex.figure v .inbound true [] = .ok w ∧ ∃ s, process Ex.drawing 6 Ex.figure w .outbound true [] = .ok s := by
  exact ⟨_, rfl, _, rfl⟩

end Scheme
