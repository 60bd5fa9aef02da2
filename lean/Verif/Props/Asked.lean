import Verif.Spec.Asked
import Verif.Props.Interpolate

/-! C99: interpolation depends only on the parameters that are referred to, and more of them only add entries. -/

namespace Scheme

/-- The outcomes with fewer and with more parameters. -/
def Grown {α : Type} (R : α → α → Prop) (p q : Except Exn α) : Prop :=
  p = .error .undefinedParameter ∨ (∃ e, e ≠ .undefinedParameter ∧ q = .error e) ∨ ∃ w w', p = .ok w ∧ q = .ok w' ∧ R w w'

theorem Grown.bind {α β : Type} {R : α → α → Prop} {S : β → β → Prop} {p q : Except Exn α} {f g : α → Except Exn β} (h : Grown R p q)
    (hf : ∀ w w', R w w' → Grown S (f w) (g w')) : Grown S (p >>= f) (q >>= g) := by
  rcases h with rfl | ⟨e, he, rfl⟩ | ⟨w, w', rfl, rfl, hr⟩
  · exact .inl rfl
  · exact .inr (.inl ⟨e, he, rfl⟩)
  · exact hf w w' hr

theorem Grown.map {α β : Type} {R : α → α → Prop} {S : β → β → Prop} {p q : Except Exn α} {f : α → β} (h : Grown R p q)
    (hf : ∀ w w', R w w' → S (f w) (f w')) : Grown S (p.map f) (q.map f) := by
  rcases h with rfl | ⟨e, he, rfl⟩ | ⟨w, w', rfl, rfl, hr⟩
  · exact .inl rfl
  · exact .inr (.inl ⟨e, he, rfl⟩)
  · exact .inr (.inr ⟨_, _, rfl, rfl, hf w w' hr⟩)

theorem Grown.refl {α : Type} {R : α → α → Prop} (hR : ∀ w, R w w) (p : Except Exn α) : Grown R p p := by
  match p with
  | .ok w => exact .inr (.inr ⟨w, w, rfl, rfl, hR w⟩)
  | .error e =>
    by_cases he : e = .undefinedParameter
    · exact .inl (by rw [he])
    · exact .inr (.inl ⟨e, he, rfl⟩)

/-- The outcomes of an entry that is left out if a parameter is undefined. -/
def GrownEntry (o o' : Option Val) : Prop := o = none ∨ ∃ w w', o = some w ∧ o' = some w' ∧ Fuller w w'

theorem Grown.entry {p q : Except Exn Val} (h : Grown Fuller p q) : Grown GrownEntry (notUndefined p) (notUndefined q) := by
  rcases h with rfl | ⟨e, he, rfl⟩ | ⟨w, w', rfl, rfl, hr⟩
  · match q with
    | .ok w => exact .inr (.inr ⟨_, _, rfl, rfl, .inl rfl⟩)
    | .error e =>
      by_cases he : e = .undefinedParameter
      · subst he; exact .inr (.inr ⟨_, _, rfl, rfl, .inl rfl⟩)
      · exact .inr (.inl ⟨e, he, by cases e <;> first | rfl | exact absurd rfl he⟩)
  · exact .inr (.inl ⟨e, he, by cases e <;> first | rfl | exact absurd rfl he⟩)
  · exact .inr (.inr ⟨_, _, rfl, rfl, .inr ⟨w, w', rfl, rfl, hr⟩⟩)

theorem keepEntry_fuller {k : Val} {o o' : Option Val} {d d' : List (Val × Val)} (ho : GrownEntry o o') (hd : FullerD d d') :
    FullerD (keepEntry k o d) (keepEntry k o' d') := by
  rcases ho with rfl | ⟨w, w', rfl, rfl, hw⟩
  · cases o' with
    | none => exact hd
    | some w => exact .add hd
  · exact .keep hw hd

section
variable {env : Env} {r r' : Ext}

theorem extractChild_grown {f : Field} {v : Val} (h : ∀ g, resolve env f = some g → Grown Fuller (r g v) (r' g v)) :
    Grown Fuller (extractChild env r f v) (extractChild env r' f v) := by
  unfold extractChild
  cases hg : resolve env f with
  | none => exact .refl (fun _ => .same) _
  | some g => exact h g hg

theorem items_grown {item : Field} : ∀ {l : List Val}, (∀ w ∈ l, ∀ g, resolve env item = some g → Grown Fuller (r g w) (r' g w)) →
    Grown FullerL (interpolateItems env r item l) (interpolateItems env r' item l)
  | [], _ => .inr (.inr ⟨_, _, rfl, rfl, .nil⟩)
  | v :: l, h => by
    refine .bind (extractChild_grown (h v List.mem_cons_self)) fun x x' hx => ?_
    refine .bind (items_grown fun w hw => h w (List.mem_cons_of_mem _ hw)) fun y y' hy => ?_
    exact .inr (.inr ⟨_, _, rfl, rfl, .cons hx hy⟩)

theorem slots_grown : ∀ {fs : List Field} {l : List Val},
    (∀ (i : Nat) f w, fs[i]? = some f → l[i]? = some w → ∀ g, resolve env f = some g → Grown Fuller (r g w) (r' g w)) →
    Grown FullerL (interpolateSlots env r fs l) (interpolateSlots env r' fs l)
  | [], _, _ => .inr (.inr ⟨_, _, rfl, rfl, .nil⟩)
  | _ :: _, [], _ => .inr (.inl ⟨.py .indexError, (fun h => nomatch h), rfl⟩)
  | f :: fs, v :: l, h => by
    refine .bind (extractChild_grown (h 0 f v rfl rfl)) fun x x' hx => ?_
    refine .bind (slots_grown fun i f w hf hw => h (i + 1) f w hf hw) fun y y' hy => ?_
    exact .inr (.inr ⟨_, _, rfl, rfl, .cons hx hy⟩)

theorem entries_grown {value : Field} : ∀ {d : List (Val × Val)},
    (∀ k w, (k, w) ∈ d → ∀ g, resolve env value = some g → Grown Fuller (r g w) (r' g w)) →
    Grown FullerD (interpolateEntries env r value d) (interpolateEntries env r' value d)
  | [], _ => .inr (.inr ⟨_, _, rfl, rfl, .nil⟩)
  | (k, v) :: d, h => by
    refine .bind (extractChild_grown (h k v List.mem_cons_self)).entry fun x x' hx => ?_
    refine .bind (entries_grown fun k w hw => h k w (List.mem_cons_of_mem _ hw)) fun y y' hy => ?_
    exact .inr (.inr ⟨_, _, rfl, rfl, keepEntry_fuller hx hy⟩)

theorem members_grown {d : List (Val × Val)} : ∀ {defn : List (Str × Field)},
    (∀ name f w, (name, f) ∈ defn → dictGet d (.str name) = some w → ∀ g, resolve env f = some g → Grown Fuller (r g w) (r' g w)) →
    Grown FullerD (interpolateMembers env r d defn) (interpolateMembers env r' d defn)
  | [], _ => .inr (.inr ⟨_, _, rfl, rfl, .nil⟩)
  | (name, f) :: defn, h => by
    have hrest := members_grown (d := d) fun name f w hm => h name f w (List.mem_cons_of_mem _ hm)
    unfold interpolateMembers
    cases hv : dictGet d (.str name) with
    | none => exact hrest
    | some v =>
      refine .bind (extractChild_grown (h name f v List.mem_cons_self hv)).entry fun x x' hx => ?_
      refine .bind hrest fun y y' hy => ?_
      exact .inr (.inr ⟨_, _, rfl, rfl, keepEntry_fuller hx hy⟩)

theorem variantGet_found {id : Val} {defn : List (Str × Field)} : ∀ {variants : List (Val × List (Str × Field))}, variantGet variants id = some defn →
    ∃ i, (i, defn) ∈ variants ∧ pyEq id i = true
  | [], h => by cases h
  | (i, d) :: vs, h => by
    unfold variantGet at h
    by_cases hp : pyEq id i = true
    · rw [if_pos hp] at h; cases h; exact ⟨i, List.mem_cons_self, hp⟩
    · rw [if_neg hp] at h
      obtain ⟨j, hj, he⟩ := variantGet_found h
      exact ⟨j, List.mem_cons_of_mem _ hj, he⟩

theorem body_grown {f : Field} {v : Val} (h : ∀ g w, InCharge env f v g w → Grown Fuller (r g w) (r' g w)) :
    Grown Fuller (interpolateBody env r f v) (interpolateBody env r' f v) := by
  have same : ∀ p, Grown Fuller p p := Grown.refl fun _ => .same
  cases f with
  | leaf c k => exact same _
  | sequence c item a b q =>
    cases v <;> first
      | exact same _
      | exact .map (items_grown fun w hw g hg => h g w (.item hw hg)) fun _ _ => .list
      | exact .map (items_grown fun w hw g hg => h g w (.item' hw hg)) fun _ _ => .list
  | map c key value req =>
    cases v <;> first
      | exact same _
      | exact .map (entries_grown fun k w hw g hg => h g w (.value hw hg)) fun _ _ => .dict
  | tuple c fs =>
    cases v <;> first
      | exact same _
      | exact .map (slots_grown fun i f w hf hw g hg => h g w (.slot hf hw hg)) fun _ _ => .tuple
      | exact .map (slots_grown fun i f w hf hw g hg => h g w (.slot' hf hw hg)) fun _ _ => .tuple
  | union c fs => exact same _
  | «structure» c defn st ko =>
    cases v <;> first
      | exact same _
      | exact .map (members_grown fun name f w hm hw g hg => h g w (.member hm hw hg)) fun _ _ => .dict
  | poly c disc variants st ko =>
    cases v with
    | dict d =>
      unfold interpolateBody
      dsimp only
      cases hid : dictGet d (.str (disc.name.getD [])) with
      | none => exact same _
      | some id =>
        dsimp only
        by_cases ht : id.truthy = true
        · rw [if_pos ht, if_pos ht]
          unfold variantAt
          by_cases hh : hashable id = true
          · rw [if_pos hh]
            cases hg : variantGet variants id with
            | none => exact same _
            | some defn =>
              obtain ⟨i, hi, he⟩ := variantGet_found hg
              exact .map (members_grown fun name f w hm hw g hg => h g w (.variant hid hi he hm hw hg)) fun _ _ => .dict
          · rw [if_neg hh]; exact same _
        · rw [if_neg ht, if_neg ht]; exact same _
    | _ => exact same _
  | undef i => exact same _

end

theorem params_answer {env : Env} {t t' : Templates} {f : Field} (hf : ∀ c k, f = .leaf c k → ¬ TemplateLeaf k) {v : Val}
    (h : ∀ a, Asks env t f v a → MoreAnswers t t' a) :
    interpolateParams env t true v = .error .undefinedParameter ∨ interpolateParams env t' true v = interpolateParams env t true v := by
  cases v with
  | str s =>
    by_cases hr : ∃ e, VarRef env.u s e
    · obtain ⟨e, hr⟩ := hr
      rw [C52_evaluated env t s e hr, C52_evaluated env t' s e hr]
      rcases h _ (.reference hf hr) with hs | ⟨e', he, hu⟩
      · exact .inr hs
      · cases he; exact .inl hu
    · rw [C52_unchanged env t s fun e he => hr ⟨e, he⟩, C52_unchanged env t' s fun e he => hr ⟨e, he⟩]
      exact .inr rfl
  | _ => exact .inr rfl

theorem template_answer {env : Env} {t t' : Templates} {c : Common} {k : Leaf} (hk : TemplateLeaf k) {v : Val}
    (h : ∀ a, Asks env t (.leaf c k) v a → MoreAnswers t t' a) : interpolateParams env t' false v = interpolateParams env t false v := by
  cases v with
  | str s =>
    rw [C52_full, C52_full]
    by_cases hs : s = []
    · rw [if_pos hs, if_pos hs]
    · rw [if_neg hs, if_neg hs]
      rcases h _ (.template hk hs) with he | ⟨e, he, _⟩
      · exact he
      · cases he
  | _ => rfl

theorem leaf_answer {env : Env} {t t' : Templates} {c : Common} {k : Leaf} {v : Val}
    (h : ∀ a, Asks env t (.leaf c k) v a → MoreAnswers t t' a) :
    interpolateLeaf env t k v = .error .undefinedParameter ∨ interpolateLeaf env t' k v = interpolateLeaf env t k v := by
  by_cases hk : TemplateLeaf k
  · have he := template_answer hk h
    rcases hk with ⟨_, _, _, _, rfl⟩ | ⟨_, _, _, _, rfl⟩ | ⟨_, rfl⟩ <;> exact .inr he
  · have hp := params_answer (f := .leaf c k) (fun c' k' he => by cases he; exact hk) h
    cases k with
    | text => exact absurd (.inl ⟨_, _, _, _, rfl⟩) hk
    | email => exact absurd (.inr (.inl ⟨_, _, _, _, rfl⟩)) hk
    | token => exact absurd (.inr (.inr ⟨_, rfl⟩)) hk
    | surrogate vs =>
      unfold interpolateLeaf
      dsimp only
      by_cases hs : v.isStr = true
      · rw [if_pos hs, if_pos hs]
        cases v <;> first | cases hs | skip
        rename_i s
        rcases hp with hp | hp
        · rw [hp]; exact .inl rfl
        · rw [hp]
          right
          cases hx : interpolateParams env t true (.str s) with
          | error e => rfl
          | ok x =>
            cases x with
            | dict d =>
              show t'.surrogate d = t.surrogate d
              by_cases hr : ∃ e, VarRef env.u s e
              · obtain ⟨e, hr⟩ := hr
                rw [C52_evaluated env t s e hr] at hx
                rcases h _ (.surrogateAt hr hx) with he | ⟨e, he, _⟩
                · exact he
                · cases he
              · rw [C52_unchanged env t s fun e he => hr ⟨e, he⟩] at hx
                cases hx
            | _ => rfl
      · rw [if_neg hs, if_neg hs]
        right
        cases v with
        | dict d =>
          rcases h _ .surrogate with he | ⟨e, he, _⟩
          · exact he
          · cases he
        | _ => rfl
    | decimal a b =>
      unfold interpolateLeaf
      cases v <;> first | exact .inr rfl | skip
      dsimp only
      rcases hp with hp | hp
      · rw [hp]; exact .inl rfl
      · rw [hp]; exact .inr rfl
    | _ =>
      unfold interpolateLeaf
      dsimp only
      rcases hp with hp | hp
      · first
          | (split <;> first | exact .inr rfl | (rw [hp]; exact .inl rfl) | exact .inl hp)
          | (rw [hp]; exact .inl rfl)
      · rw [hp]; exact .inr rfl

theorem step_container {env : Env} {t : Templates} {r : Ext} {f : Field} {v : Val} (hl : ∀ c k, f ≠ .leaf c k) (hu : ∀ i, f ≠ .undef i) :
    interpolateStep env t r f v =
      if v.isNone then .ok .none else (if v.isStr then interpolateParams env t true v else .ok v) >>= interpolateBody env r f := by
  cases f with
  | leaf c k => exact absurd rfl (hl c k)
  | undef i => exact absurd rfl (hu i)
  | _ => cases v <;> rfl

theorem step_grown {env : Env} {t t' : Templates} {r r' : Ext} {f : Field} {v : Val} (h : ∀ a, Asks env t f v a → MoreAnswers t t' a)
    (hr : ∀ g w, (∀ a, Asks env t g w a → MoreAnswers t t' a) → Grown Fuller (r g w) (r' g w)) :
    Grown Fuller (interpolateStep env t r f v) (interpolateStep env t' r' f v) := by
  have same : ∀ p, Grown Fuller p p := Grown.refl fun _ => .same
  have container : (∀ c k, f = .leaf c k → ¬ TemplateLeaf k) →
      Grown Fuller (if v.isNone then .ok .none else (if v.isStr then interpolateParams env t true v else .ok v) >>= interpolateBody env r f)
        (if v.isNone then .ok .none else (if v.isStr then interpolateParams env t' true v else .ok v) >>= interpolateBody env r' f) := by
    intro hf
    by_cases hn : v.isNone = true
    · rw [if_pos hn, if_pos hn]; exact same _
    · rw [if_neg hn, if_neg hn]
      by_cases hs : v.isStr = true
      · rw [if_pos hs, if_pos hs]
        rcases params_answer hf h with hp | hp
        · rw [hp]; exact .inl rfl
        · rw [hp]
          cases v <;> first | cases hs | skip
          rename_i s
          cases hx : interpolateParams env t true (.str s) with
          | error e => exact same _
          | ok x =>
            refine body_grown fun g w hg => hr g w fun a ha => ?_
            by_cases hv : ∃ e, VarRef env.u s e
            · obtain ⟨e, hv⟩ := hv
              rw [C52_evaluated env t s e hv] at hx
              exact h a (.through hv hx hg ha)
            · rw [C52_unchanged env t s fun e he => hv ⟨e, he⟩] at hx
              cases hx
              exact h a (.inside hg ha)
      · rw [if_neg hs, if_neg hs]
        exact body_grown fun g w hg => hr g w fun a ha => h a (.inside hg ha)
  cases f with
  | undef i => exact same _
  | leaf c k =>
    unfold interpolateStep
    dsimp only
    by_cases hn : v.isNone = true
    · rw [if_pos hn, if_pos hn]; exact same _
    · rw [if_neg hn, if_neg hn]
      rcases leaf_answer h with hp | hp
      · exact .inl hp
      · rw [hp]; exact same _
  | _ =>
    rw [step_container (by intro _ _ he; cases he) (by intro _ he; cases he), step_container (by intro _ _ he; cases he) (by intro _ he; cases he)]
    exact container (by intro _ _ he; cases he)

theorem interpolate_grown {env : Env} {t t' : Templates} : ∀ (n : Nat) (f : Field) (v : Val), (∀ a, Asks env t f v a → MoreAnswers t t' a) →
    Grown Fuller (interpolate env t n f v) (interpolate env t' n f v)
  | 0, _, _, _ => .refl (fun _ => .same) _
  | n + 1, _, _, h => step_grown h (interpolate_grown n)

/-- C99: with more parameters (those defined before having the values they had, as far as they are asked for), interpolation that succeeds
both times gives the same value with entries added to its dicts; what was refused for another reason than an undefined parameter is still refused;
and what succeeded does not become undefined. -/
theorem C99_more {env : Env} {t t' : Templates} (n : Nat) {f : Field} {v : Val} (h : ∀ a, Asks env t f v a → MoreAnswers t t' a) :
    (∀ w w', interpolate env t n f v = .ok w → interpolate env t' n f v = .ok w' → Fuller w w') ∧
    (∀ e, interpolate env t n f v = .error e → e ≠ .undefinedParameter → ∃ e', interpolate env t' n f v = .error e') ∧
    (∀ w, interpolate env t n f v = .ok w → interpolate env t' n f v ≠ .error .undefinedParameter) := by
  rcases interpolate_grown n f v h with hp | ⟨e, he, hq⟩ | ⟨w, w', hp, hq, hw⟩
  · rw [hp]
    refine ⟨fun w w' hw => (by cases hw), fun e h1 h2 => absurd (Except.error.inj h1).symm h2, fun w hw => (by cases hw)⟩
  · rw [hq]
    exact ⟨fun w w' _ hw => (by cases hw), fun e' _ _ => ⟨e, rfl⟩, fun w _ hu => he (Except.error.inj hu)⟩
  · rw [hp, hq]
    exact ⟨fun x x' h1 h2 => by cases h1; cases h2; exact hw, fun e h1 => (by cases h1), fun _ _ h => (by cases h)⟩

/-! ### Parameters not referred to -/

section
variable {env : Env} {r r' : Ext}

theorem extractChild_same {f : Field} {v : Val} (h : ∀ g, resolve env f = some g → r' g v = r g v) :
    extractChild env r' f v = extractChild env r f v := by
  unfold extractChild
  cases hg : resolve env f with
  | none => rfl
  | some g => exact h g hg

theorem items_same {item : Field} : ∀ {l : List Val}, (∀ w ∈ l, ∀ g, resolve env item = some g → r' g w = r g w) →
    interpolateItems env r' item l = interpolateItems env r item l
  | [], _ => rfl
  | v :: l, h => by
    unfold interpolateItems
    rw [extractChild_same (h v List.mem_cons_self), items_same fun w hw => h w (List.mem_cons_of_mem _ hw)]

theorem answers_slots_same : ∀ {fs : List Field} {l : List Val},
    (∀ (i : Nat) f w, fs[i]? = some f → l[i]? = some w → ∀ g, resolve env f = some g → r' g w = r g w) →
    interpolateSlots env r' fs l = interpolateSlots env r fs l
  | [], _, _ => rfl
  | _ :: _, [], _ => rfl
  | f :: fs, v :: l, h => by
    unfold interpolateSlots
    rw [extractChild_same (h 0 f v rfl rfl), answers_slots_same fun i f w hf hw => h (i + 1) f w hf hw]

theorem entries_same {value : Field} : ∀ {d : List (Val × Val)}, (∀ k w, (k, w) ∈ d → ∀ g, resolve env value = some g → r' g w = r g w) →
    interpolateEntries env r' value d = interpolateEntries env r value d
  | [], _ => rfl
  | (k, v) :: d, h => by
    unfold interpolateEntries
    rw [extractChild_same (h k v List.mem_cons_self), entries_same fun k w hw => h k w (List.mem_cons_of_mem _ hw)]

theorem members_same {d : List (Val × Val)} : ∀ {defn : List (Str × Field)},
    (∀ name f w, (name, f) ∈ defn → dictGet d (.str name) = some w → ∀ g, resolve env f = some g → r' g w = r g w) →
    interpolateMembers env r' d defn = interpolateMembers env r d defn
  | [], _ => rfl
  | (name, f) :: defn, h => by
    have hrest := members_same (d := d) fun name f w hm => h name f w (List.mem_cons_of_mem _ hm)
    unfold interpolateMembers
    cases hv : dictGet d (.str name) with
    | none => exact hrest
    | some v =>
      dsimp only
      rw [extractChild_same (h name f v List.mem_cons_self hv), hrest]

theorem body_same {f : Field} {v : Val} (h : ∀ g w, InCharge env f v g w → r' g w = r g w) : interpolateBody env r' f v = interpolateBody env r f v := by
  cases f with
  | leaf c k => rfl
  | sequence c item a b q =>
    cases v <;> first
      | rfl
      | exact congrArg (Except.map _) (items_same fun w hw g hg => h g w (.item hw hg))
      | exact congrArg (Except.map _) (items_same fun w hw g hg => h g w (.item' hw hg))
  | map c key value req =>
    cases v <;> first
      | rfl
      | exact congrArg (Except.map _) (entries_same fun k w hw g hg => h g w (.value hw hg))
  | tuple c fs =>
    cases v <;> first
      | rfl
      | exact congrArg (Except.map _) (answers_slots_same fun i f w hf hw g hg => h g w (.slot hf hw hg))
      | exact congrArg (Except.map _) (answers_slots_same fun i f w hf hw g hg => h g w (.slot' hf hw hg))
  | union c fs => rfl
  | «structure» c defn st ko =>
    cases v <;> first
      | rfl
      | exact congrArg (Except.map _) (members_same fun name f w hm hw g hg => h g w (.member hm hw hg))
  | poly c disc variants st ko =>
    cases v with
    | dict d =>
      unfold interpolateBody
      dsimp only
      cases hid : dictGet d (.str (disc.name.getD [])) with
      | none => rfl
      | some id =>
        dsimp only
        by_cases ht : id.truthy = true
        · rw [if_pos ht, if_pos ht]
          unfold variantAt
          by_cases hh : hashable id = true
          · rw [if_pos hh]
            cases hg : variantGet variants id with
            | none => rfl
            | some defn =>
              obtain ⟨i, hi, he⟩ := variantGet_found hg
              exact congrArg (Except.map _) (members_same fun name f w hm hw g hg => h g w (.variant hid hi he hm hw hg))
          · rw [if_neg hh]; rfl
        · rw [if_neg ht, if_neg ht]
    | _ => rfl
  | undef i => rfl

end

theorem asks_same {env : Env} {t t' : Templates} {c : Common} {k : Leaf} {v : Val} (h : ∀ a, Asks env t (.leaf c k) v a → SameAnswer t t' a)
    {a : Ask} (ha : Asks env t' (.leaf c k) v a) : SameAnswer t' t a := by
  have symm : ∀ {a}, SameAnswer t t' a → SameAnswer t' t a := fun {a} h => by cases a <;> exact h.symm
  cases ha with
  | template hk hs => exact symm (h _ (.template hk hs))
  | reference hf hr => exact symm (h _ (.reference hf hr))
  | surrogate => exact symm (h _ .surrogate)
  | surrogateAt hr he =>
    have h1 : t'.evaluate _ = t.evaluate _ := h _ (.reference (fun c k hk => by
      cases hk
      rintro (⟨_, _, _, _, h⟩ | ⟨_, _, _, _, h⟩ | ⟨_, h⟩) <;> cases h) hr)
    exact symm (h _ (.surrogateAt hr (h1.symm.trans he)))
  | inside hp _ => cases hp
  | through _ _ hp _ => cases hp

/-- With the same answers throughout, the outcome of a leaf is the same even if a parameter is undefined. -/
theorem leaf_same {env : Env} {t t' : Templates} {c : Common} {k : Leaf} {v : Val}
    (h : ∀ a, Asks env t (.leaf c k) v a → SameAnswer t t' a) : interpolateLeaf env t' k v = interpolateLeaf env t k v := by
  rcases leaf_answer (c := c) (t' := t') fun a ha => .inl (h a ha) with hu | he
  · rcases leaf_answer (c := c) (t := t') (t' := t) (k := k) (v := v) fun a ha => .inl (asks_same h ha) with hu' | he
    · rw [hu, hu']
    · exact he.symm
  · exact he

/-- C99: the outcome depends on nothing but the answers to what is asked, so parameters that are not referred to do not matter. -/
theorem C99_mentioned {env : Env} {t t' : Templates} : ∀ (n : Nat) {f : Field} {v : Val}, (∀ a, Asks env t f v a → SameAnswer t t' a) →
    interpolate env t' n f v = interpolate env t n f v
  | 0, _, _, _ => rfl
  | n + 1, f, v, h => by
    have hm : ∀ a, Asks env t f v a → MoreAnswers t t' a := fun a ha => .inl (h a ha)
    show interpolateStep _ _ _ _ _ = interpolateStep _ _ _ _ _
    have params : (∀ c k, f = .leaf c k → ¬ TemplateLeaf k) → interpolateParams env t' true v = interpolateParams env t true v := by
      intro hf
      cases v with
      | str s =>
        by_cases hr : ∃ e, VarRef env.u s e
        · obtain ⟨e, hr⟩ := hr
          rw [C52_evaluated env t s e hr, C52_evaluated env t' s e hr]
          exact h _ (.reference hf hr)
        · rw [C52_unchanged env t s fun e he => hr ⟨e, he⟩, C52_unchanged env t' s fun e he => hr ⟨e, he⟩]
      | _ => rfl
    have container : (∀ c k, f = .leaf c k → ¬ TemplateLeaf k) →
        (if v.isNone then .ok .none else (if v.isStr then interpolateParams env t' true v else .ok v) >>= interpolateBody env (interpolate env t' n) f) =
        (if v.isNone then .ok .none else (if v.isStr then interpolateParams env t true v else .ok v) >>= interpolateBody env (interpolate env t n) f) := by
      intro hf
      by_cases hn : v.isNone = true
      · rw [if_pos hn, if_pos hn]
      · rw [if_neg hn, if_neg hn]
        by_cases hs : v.isStr = true
        · rw [if_pos hs, if_pos hs, params hf]
          cases v <;> first | cases hs | skip
          rename_i s
          cases hx : interpolateParams env t true (.str s) with
          | error e => rfl
          | ok x =>
            refine body_same fun g w hg => C99_mentioned n fun a ha => ?_
            by_cases hv : ∃ e, VarRef env.u s e
            · obtain ⟨e, hv⟩ := hv
              rw [C52_evaluated env t s e hv] at hx
              exact h a (.through hv hx hg ha)
            · rw [C52_unchanged env t s fun e he => hv ⟨e, he⟩] at hx
              cases hx
              exact h a (.inside hg ha)
        · rw [if_neg hs, if_neg hs]
          exact body_same fun g w hg => C99_mentioned n fun a ha => h a (.inside hg ha)
    cases f with
    | undef i => rfl
    | leaf c k =>
      unfold interpolateStep
      dsimp only
      by_cases hn : v.isNone = true
      · rw [if_pos hn, if_pos hn]
      · rw [if_neg hn, if_neg hn]
        exact leaf_same (c := c) h
    | _ =>
      rw [step_container (by intro _ _ he; cases he) (by intro _ he; cases he), step_container (by intro _ _ he; cases he) (by intro _ he; cases he)]
      exact container (by intro _ _ he; cases he)

/-! ### Cases -/

namespace Ex

/-- The engine that knows `b` as well. -/
def engineWith (b : Val) : Templates := { Ex.engine with evaluate := fun e => if e = c!"b" then .ok b else Ex.engine.evaluate e }

theorem engine_more (b : Val) (a : Ask) : MoreAnswers Ex.engine (Ex.engineWith b) a := by
  cases a with
  | evaluate e =>
    by_cases he : e = c!"b"
    · subst he; exact .inr ⟨_, rfl, rfl⟩
    · exact .inl (if_neg he)
  | render s => exact .inl rfl
  | surrogate d => exact .inl rfl

/-- `{'n': '${b}', 't': 'x'}` -/
def subject : Val := .dict [(.str c!"n", .str c!"${b}"), (.str c!"t", .str c!"x")]

end Ex

/-- With `b` defined the member that was dropped is there. -/
example : interpolate Ex.env Ex.engine 5 Ex.order Ex.subject = .ok (.dict [(.str c!"t", .str c!"x")]) ∧
    interpolate Ex.env (Ex.engineWith (.int 7)) 5 Ex.order Ex.subject = .ok (.dict [(.str c!"n", .int 7), (.str c!"t", .str c!"x")]) := ⟨rfl, rfl⟩

example : Fuller (.dict [(.str c!"t", .str c!"x")]) (.dict [(.str c!"n", .int 7), (.str c!"t", .str c!"x")]) :=
  (C99_more (env := Ex.env) (f := Ex.order) (v := Ex.subject) 5 fun a _ => Ex.engine_more (.int 7) a).1 _ _ rfl rfl

/-- C99: but a parameter that is now defined may be refused, so that what succeeded without it fails. -/
theorem C99_more_fails : ∃ (env : Env) (t t' : Templates) (n : Nat) (f : Field) (v w : Val) (e : Exn),
    (∀ a, MoreAnswers t t' a) ∧ interpolate env t n f v = .ok w ∧ interpolate env t' n f v = .error e :=
  ⟨Ex.env, Ex.engine, Ex.engineWith (.list []), 5, Ex.order, Ex.subject, _, .py .valueError, Ex.engine_more _, rfl, rfl⟩

/-- A subject that does not refer to `b`. -/
example (b : Val) : interpolate Ex.env (Ex.engineWith b) 5 Ex.order (.dict [(.str c!"l", .str c!"${l}")]) = .ok (.dict [(.str c!"l", .list [.int 5])]) := by
  have hl : VarRef Ex.env.u c!"${l}" c!"l" :=
    ⟨[], c!"l", [], rfl, by decide, by decide, by decide, by decide, [], [], rfl, by decide, by decide, by decide, by decide⟩
  have ha : VarRef Ex.env.u c!"${a}" c!"a" :=
    ⟨[], c!"a", [], rfl, by decide, by decide, by decide, by decide, [], [], rfl, by decide, by decide, by decide, by decide⟩
  have item : ∀ a, Asks Ex.env Ex.engine Ex.int (.str c!"${a}") a → SameAnswer Ex.engine (Ex.engineWith b) a := by
    intro a h
    cases h with
    | template hk _ => rcases hk with ⟨_, _, _, _, h⟩ | ⟨_, _, _, _, h⟩ | ⟨_, h⟩ <;> cases h
    | reference _ hr => cases C52_unique _ _ _ _ hr ha; rfl
    | inside hp _ => cases hp
    | through _ _ hp _ => cases hp
  rw [C99_mentioned 5 (t := Ex.engine)]
  · rfl
  · intro a h
    cases h with
    | inside hp h =>
      cases hp with
      | member hm hw hg =>
        simp only [List.mem_cons, List.not_mem_nil, or_false, Prod.mk.injEq] at hm
        rcases hm with ⟨rfl, rfl⟩ | ⟨rfl, rfl⟩ | ⟨rfl, rfl⟩
        · cases hw
        · cases hw
        · cases hw
          cases hg
          cases h with
          | reference _ hr => cases C52_unique _ _ _ _ hr hl; rfl
          | inside hp _ => cases hp
          | through hr he hp h =>
            cases C52_unique _ _ _ _ hr hl
            cases he
            cases hp with
            | item hm hg =>
              simp only [List.mem_cons, List.not_mem_nil, or_false] at hm
              subst hm
              cases hg
              exact item _ h

end Scheme
