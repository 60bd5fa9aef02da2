import Verif.Spec.Transform
import Verif.Props.Filter

/-! C35: `transform`. -/

namespace Scheme

theorem transform_succ {env : Env} {tr : Field → Answer} {n : Nat} {f : Field} (hf : ∀ s, f ≠ .undef s) :
    transform env tr (n + 1) f = match tr f with
      | .itself => .ok none
      | .field g => .ok (some g)
      | .no => .ok none
      | .other => transformBody env n (transform env tr n) f := by
  cases f with
  | undef s => exact absurd rfl (hf s)
  | _ => rfl

section
variable {env : Env} {rec : Field → Except PyErr (Option Field)}

theorem transformChild_ok {f : Field} {x : Option Field} :
    transformChild env rec f = .ok x ↔ ∃ g, resolve env f = some g ∧ rec g = .ok x := by
  unfold transformChild
  cases resolve env f <;> simp

theorem transformList_spec {fs : List Field} {r : List Field × Bool} (h : transformList env rec fs = .ok r) :
    All2 (fun f f' => ∃ g x, resolve env f = some g ∧ rec g = .ok x ∧ f' = x.getD f) fs r.1 ∧
    (∀ f ∈ fs, ∃ g x, resolve env f = some g ∧ rec g = .ok x) ∧
    (r.2 = false ↔ ∀ f ∈ fs, ∀ g, resolve env f = some g → rec g = .ok none) ∧ (r.2 = false → r.1 = fs) := by
  induction fs generalizing r with
  | nil => simp only [transformList, Except.ok.injEq] at h; subst h; exact ⟨.nil, by simp, by simp, fun _ => rfl⟩
  | cons f t ih =>
    simp only [transformList, except_bind_eq_ok, except_pure, Except.ok.injEq] at h
    obtain ⟨x, hx, r', hr', rfl⟩ := h
    obtain ⟨g, hg, hx'⟩ := transformChild_ok.1 hx
    obtain ⟨h1, h2, h3, h4⟩ := ih hr'
    refine ⟨.cons ⟨g, x, hg, hx', rfl⟩ h1, ?_, ?_, ?_⟩
    · intro e he
      rcases List.mem_cons.1 he with rfl | he
      · exact ⟨g, x, hg, hx'⟩
      · exact h2 e he
    · simp only [Bool.or_eq_false_iff, h3, List.forall_mem_cons]
      refine and_congr_left fun _ => ⟨fun h g0 hg0 => ?_, fun h => ?_⟩
      · rw [hg] at hg0; cases hg0
        cases x with
        | none => exact hx'
        | some y => cases h
      · have := h g hg
        rw [hx'] at this; cases this; rfl
    · intro h
      simp only [Bool.or_eq_false_iff] at h
      cases x with
      | none => simp [h4 h.2]
      | some y => cases h.1

theorem transformMembers_spec {defn : List (Str × Field)} {r : List (Str × Field) × Bool}
    (h : transformMembers env rec defn = .ok r) :
    All2 (fun e e' => e'.1 = e.1 ∧ ∃ g x, resolve env e.2 = some g ∧ rec g = .ok x ∧ e'.2 = x.getD e.2) defn r.1 ∧
    (∀ e ∈ defn, ∃ g x, resolve env e.2 = some g ∧ rec g = .ok x) ∧
    (r.2 = false ↔ ∀ e ∈ defn, ∀ g, resolve env e.2 = some g → rec g = .ok none) := by
  induction defn generalizing r with
  | nil => simp only [transformMembers, Except.ok.injEq] at h; subst h; exact ⟨.nil, by simp, by simp⟩
  | cons e t ih =>
    obtain ⟨name, f⟩ := e
    simp only [transformMembers, except_bind_eq_ok, except_pure, Except.ok.injEq] at h
    obtain ⟨x, hx, r', hr', rfl⟩ := h
    obtain ⟨g, hg, hx'⟩ := transformChild_ok.1 hx
    obtain ⟨h1, h2, h3⟩ := ih hr'
    refine ⟨.cons ⟨rfl, g, x, hg, hx', rfl⟩ h1, ?_, ?_⟩
    · intro e he
      rcases List.mem_cons.1 he with rfl | he
      · exact ⟨g, x, hg, hx'⟩
      · exact h2 e he
    · simp only [Bool.or_eq_false_iff, h3, List.forall_mem_cons]
      refine and_congr_left fun _ => ⟨fun h g0 hg0 => ?_, fun h => ?_⟩
      · rw [hg] at hg0; cases hg0
        cases x with
        | none => exact hx'
        | some y => cases h
      · have := h g hg
        rw [hx'] at this; cases this; rfl

end

/-- What `transform` returns is not a placeholder. -/
theorem transform_defined {env : Env} {tr : Field → Answer} (ht : ProperAnswer tr) {n : Nat} {f g : Field}
    (h : transform env tr n f = .ok (some g)) : ∀ s, g ≠ .undef s := by
  cases n with
  | zero => simp [transform] at h
  | succ n =>
    have hf : ∀ s, f ≠ .undef s := by rintro s rfl; simp [transform] at h
    rw [transform_succ hf] at h
    split at h
    · cases h
    · rename_i hg; cases h; exact ht _ _ hg
    · cases h
    · intro s
      rintro rfl
      cases f with
      | leaf c k => simp [transformBody] at h
      | undef s => exact hf s rfl
      | poly c d vs s ko => simp only [transformBody] at h; split at h <;> cases h
      | sequence c i a b u =>
        simp only [transformBody, except_bind_eq_ok] at h
        obtain ⟨x, -, h⟩ := h
        split at h
        · cases h
        · simp only [except_map_eq_ok, initErrors_ok] at h
          obtain ⟨a, ⟨rfl, -⟩, h⟩ := h; cases h
      | map c k v r =>
        simp only [transformBody, except_bind_eq_ok] at h
        obtain ⟨x, -, h⟩ := h
        split at h
        · cases h
        · simp only [except_map_eq_ok, cloneMapWith, except_bind_eq_ok, initErrors_ok] at h
          obtain ⟨a, ⟨k', -, rfl, -⟩, h⟩ := h; cases h
      | tuple c vs =>
        simp only [transformBody, except_bind_eq_ok] at h
        obtain ⟨x, -, h⟩ := h
        split at h
        · simp only [except_map_eq_ok, initErrors_ok] at h
          obtain ⟨a, ⟨rfl, -⟩, h⟩ := h; cases h
        · cases h
      | union c vs =>
        simp only [transformBody, except_bind_eq_ok] at h
        obtain ⟨x, -, h⟩ := h
        split at h
        · simp only [except_map_eq_ok, initErrors_ok] at h
          obtain ⟨a, ⟨rfl, -⟩, h⟩ := h; cases h
        · cases h
      | «structure» c d s ko =>
        simp only [transformBody, except_bind_eq_ok] at h
        obtain ⟨x, -, h⟩ := h
        split at h
        · simp only [except_map_eq_ok, initErrors_ok] at h
          obtain ⟨a, ⟨rfl, -⟩, h⟩ := h; cases h
        · cases h

/-- C35. `transform` returns the same object exactly when the transformer answers no replacement for any field it is
asked about. -/
theorem C35_unchanged (env : Env) (tr : Field → Answer) (n : Nat) (f : Field) (x : Option Field)
    (h : transform env tr n f = .ok x) : x = none ↔ ∀ g, Asked env tr f g → ∀ g', tr g ≠ .field g' := by
  induction n generalizing f x with
  | zero => simp [transform] at h
  | succ n ih =>
    have hf : ∀ s, f ≠ .undef s := by rintro s rfl; simp [transform] at h
    rw [transform_succ hf] at h
    have hstop : tr f = .itself ∨ tr f = .no → ∀ g, Asked env tr f g → g = f := by
      intro ha g hg
      cases hg with
      | self => rfl
      | item h' | value h' | element h' | option h' | member h' => rw [h'] at ha; rcases ha with ha | ha <;> cases ha
    split at h
    · rename_i ha
      cases h
      simp only [true_iff]
      intro g hg g' hc
      rw [hstop (.inl ha) g hg, ha] at hc; cases hc
    · rename_i g0 ha
      cases h
      constructor
      · intro h; cases h
      · intro h; exact absurd ha (h f .self g0)
    · rename_i ha
      cases h
      simp only [true_iff]
      intro g hg g' hc
      rw [hstop (.inr ha) g hg, ha] at hc; cases hc
    · rename_i ha
      have hself : ∀ g', tr f ≠ .field g' := by intro g' hc; rw [ha] at hc; cases hc
      cases f with
      | leaf c k =>
        simp only [transformBody, Except.ok.injEq] at h; subst h
        simp only [true_iff]
        intro g hg
        cases hg; exact hself
      | undef s => exact absurd rfl (hf s)
      | poly c d vs s ko =>
        simp only [transformBody] at h
        split at h
        · cases h
          simp only [true_iff]
          intro g hg
          cases hg; exact hself
        · cases h
      | sequence c i a b u =>
        simp only [transformBody, except_bind_eq_ok] at h
        obtain ⟨y, hy, h⟩ := h
        obtain ⟨g, hg, hy⟩ := transformChild_ok.1 hy
        have := ih g y hy
        have hx : x = none ↔ y = none := by
          cases y with
          | none => simp only [except_pure, Except.ok.injEq] at h; subst h; simp
          | some z =>
            simp only [except_map_eq_ok, initErrors_ok] at h
            obtain ⟨a, -, rfl⟩ := h; simp
        rw [hx, this]
        constructor
        · intro hall g0 hg0
          cases hg0 with
          | self => exact hself
          | item _ hr hA => rw [hg] at hr; cases hr; exact hall _ hA
        · intro hall g0 hg0
          exact hall g0 (.item ha hg hg0)
      | map c k v r =>
        simp only [transformBody, except_bind_eq_ok] at h
        obtain ⟨y, hy, h⟩ := h
        obtain ⟨g, hg, hy⟩ := transformChild_ok.1 hy
        have := ih g y hy
        have hx : x = none ↔ y = none := by
          cases y with
          | none => simp only [except_pure, Except.ok.injEq] at h; subst h; simp
          | some z =>
            simp only [except_map_eq_ok] at h
            obtain ⟨a, -, rfl⟩ := h; simp
        rw [hx, this]
        constructor
        · intro hall g0 hg0
          cases hg0 with
          | self => exact hself
          | value _ hr hA => rw [hg] at hr; cases hr; exact hall _ hA
        · intro hall g0 hg0
          exact hall g0 (.value ha hg hg0)
      | tuple c vs =>
        simp only [transformBody, except_bind_eq_ok] at h
        obtain ⟨y, hy, h⟩ := h
        obtain ⟨-, h2, h3, -⟩ := transformList_spec hy
        have hx : x = none ↔ y.2 = false := by
          split at h
          · rename_i hc
            obtain ⟨a, -, rfl⟩ := except_map_eq_ok.1 h; simp [hc]
          · rename_i hc; cases h; simpa using hc
        rw [hx, h3]
        constructor
        · intro hall g0 hg0
          cases hg0 with
          | self => exact hself
          | element _ hm hr hA => exact (ih _ _ (hall _ hm _ hr)).1 rfl _ hA
        · intro hall f0 hf0 g hg
          obtain ⟨g', z, hg', hz⟩ := h2 f0 hf0
          rw [hg] at hg'; cases hg'
          have : z = none := (ih g z hz).2 fun g0 hg0 => hall g0 (.element ha hf0 hg hg0)
          rw [hz, this]
      | union c vs =>
        simp only [transformBody, except_bind_eq_ok] at h
        obtain ⟨y, hy, h⟩ := h
        obtain ⟨-, h2, h3, -⟩ := transformList_spec hy
        have hx : x = none ↔ y.2 = false := by
          split at h
          · rename_i hc
            obtain ⟨a, -, rfl⟩ := except_map_eq_ok.1 h; simp [hc]
          · rename_i hc; cases h; simpa using hc
        rw [hx, h3]
        constructor
        · intro hall g0 hg0
          cases hg0 with
          | self => exact hself
          | option _ hm hr hA => exact (ih _ _ (hall _ hm _ hr)).1 rfl _ hA
        · intro hall f0 hf0 g hg
          obtain ⟨g', z, hg', hz⟩ := h2 f0 hf0
          rw [hg] at hg'; cases hg'
          have : z = none := (ih g z hz).2 fun g0 hg0 => hall g0 (.option ha hf0 hg hg0)
          rw [hz, this]
      | «structure» c d s ko =>
        simp only [transformBody, except_bind_eq_ok] at h
        obtain ⟨y, hy, h⟩ := h
        obtain ⟨-, h2, h3⟩ := transformMembers_spec hy
        have hx : x = none ↔ y.2 = false := by
          split at h
          · rename_i hc
            obtain ⟨a, -, rfl⟩ := except_map_eq_ok.1 h; simp [hc]
          · rename_i hc; cases h; simpa using hc
        rw [hx, h3]
        constructor
        · intro hall g0 hg0
          cases hg0 with
          | self => exact hself
          | member _ hm hr hA => exact (ih _ _ (hall _ hm _ hr)).1 rfl _ hA
        · intro hall f0 hf0 g hg
          obtain ⟨g', z, hg', hz⟩ := h2 f0 hf0
          rw [hg] at hg'; cases hg'
          have : z = none := (ih g z hz).2 fun g0 hg0 => hall g0 (.member ha hf0 hg hg0)
          rw [hz, this]

/-- The replacement of a child, as computed. -/
def subOf (rec : Field → Except PyErr (Option Field)) (g : Field) : Field :=
  match rec g with
  | .ok (some h) => h
  | _ => g

theorem subOf_ok {rec : Field → Except PyErr (Option Field)} {g : Field} {x : Option Field} (h : rec g = .ok x) :
    subOf rec g = x.getD g := by
  unfold subOf
  rw [h]
  cases x <;> rfl

theorem All2.imp {α β : Type} {R S : α → β → Prop} {l : List α} {m : List β} (h : All2 R l m)
    (hi : ∀ a b, a ∈ l → R a b → S a b) : All2 S l m := by
  induction h with
  | nil => exact .nil
  | cons hr _ ih => exact .cons (hi _ _ (List.mem_cons_self ..) hr) (ih fun a b ha => hi a b (List.mem_cons_of_mem _ ha))

theorem All2.refl {α : Type} {R : α → α → Prop} {l : List α} (h : ∀ a ∈ l, R a a) : All2 R l l := by
  induction l with
  | nil => exact .nil
  | cons a r ih => exact .cons (h a (List.mem_cons_self ..)) (ih fun b hb => h b (List.mem_cons_of_mem _ hb))

theorem All2.nameMembers {env : Env} {R : Str × Field → Str × Field → Prop} {d d' : List (Str × Field)} (h : All2 R d d') :
    All2 (fun e e'' => ∃ f', R e (e''.1, f') ∧ e''.2 = nameMember e''.1 ((resolve env f').getD f')) d (nameMembers env d') := by
  induction h with
  | nil => exact .nil
  | @cons a b l m hr _ ih => exact .cons ⟨b.2, hr, rfl⟩ ih

theorem nameMember_defined {name : Str} {f : Field} (h : ∀ s, f ≠ .undef s) : ∀ s, nameMember name f ≠ .undef s := by
  intro s
  cases f with
  | undef s' => exact absurd rfl (h s')
  | _ => simp [nameMember, Field.setCommon]

/-- C35. What `transform` returns is the field with exactly the transformer's replacements made. -/
theorem C35_replaced (env : Env) (tr : Field → Answer) (ht : ProperAnswer tr) (n : Nat) (f : Field) (x : Option Field)
    (hb : Everywhere env (Built env) f) (hnp : Everywhere env (fun g => ∀ c d s ko, g ≠ .poly c d [] s ko) f)
    (hd : Everywhere env (fun g => ∀ s, g ≠ .undef s) f)
    (h : transform env tr n f = .ok x) : Replaced env tr f (x.getD f) := by
  induction n generalizing f x with
  | zero => simp [transform] at h
  | succ n ih =>
    have hf : ∀ s, f ≠ .undef s := hd.here
    rw [transform_succ hf] at h
    split at h
    · rename_i ha; cases h; exact .stop (.inl ha)
    · rename_i ha; cases h; exact .field ha
    · rename_i ha; cases h; exact .stop (.inr ha)
    · rename_i ha
      have hch : ∀ g, Child env f g → ∀ y, transform env tr n g = .ok y → Replaced env tr g (y.getD g) :=
        fun g hc y hy => ih g y (hb.child hc) (hnp.child hc) (hd.child hc) hy
      have hsub : ∀ e g y, resolve env e = some g → transform env tr n g = .ok y →
          resolve env (y.getD e) = some (subOf (transform env tr n) g) := by
        intro e g y hg hy
        rw [subOf_ok hy]
        cases y with
        | none => exact hg
        | some z => exact resolve_of_defined (transform_defined ht hy)
      cases f with
      | leaf c k =>
        simp only [transformBody, Except.ok.injEq] at h; subst h
        exact .leaf ha
      | undef s => exact absurd rfl (hf s)
      | poly c d vs s ko =>
        simp only [transformBody] at h
        split at h
        · rename_i he
          rw [List.isEmpty_iff.1 he] at hnp
          exact absurd rfl (hnp.here c d s ko)
        · cases h
      | sequence c i a b u =>
        simp only [transformBody, except_bind_eq_ok] at h
        obtain ⟨y, hy, h⟩ := h
        obtain ⟨g, hg, hy⟩ := transformChild_ok.1 hy
        have hr := hch g (.item hg) y hy
        cases y with
        | none =>
          simp only [except_pure, Except.ok.injEq] at h; subst h
          exact .sequence ha hg hg hr
        | some z =>
          simp only [except_map_eq_ok, initErrors_ok] at h
          obtain ⟨a, ⟨rfl, -⟩, rfl⟩ := h
          exact .sequence ha hg (resolve_of_defined (transform_defined ht hy)) hr
      | map c k v r =>
        simp only [transformBody, except_bind_eq_ok] at h
        obtain ⟨y, hy, h⟩ := h
        obtain ⟨g, hg, hy⟩ := transformChild_ok.1 hy
        have hr := hch g (.value hg) y hy
        cases y with
        | none =>
          simp only [except_pure, Except.ok.injEq] at h; subst h
          exact .map ha (.inl rfl) hg hg hr
        | some z =>
          simp only [except_map_eq_ok, cloneMapWith, except_bind_eq_ok, initErrors_ok] at h
          obtain ⟨a, ⟨k', hk', rfl, -⟩, rfl⟩ := h
          exact .map ha (.inr ⟨n, hk'⟩) hg (resolve_of_defined (transform_defined ht hy)) hr
      | tuple c vs =>
        simp only [transformBody, except_bind_eq_ok] at h
        obtain ⟨y, hy, h⟩ := h
        obtain ⟨h1, h2, -, h4⟩ := transformList_spec hy
        have hx : x.getD (.tuple c vs) = .tuple c y.1 := by
          split at h
          · simp only [except_map_eq_ok, initErrors_ok] at h
            obtain ⟨a, ⟨rfl, -⟩, rfl⟩ := h; rfl
          · rename_i hc; cases h; rw [h4 (by simpa using hc)]; rfl
        rw [hx]
        refine .tuple (subOf (transform env tr n)) ha (h1.imp ?_) ?_
        · rintro f0 f' - ⟨g, z, hg, hz, rfl⟩
          exact ⟨g, hg, hsub f0 g z hg hz⟩
        · intro f0 hf0 g hg
          obtain ⟨g', z, hg', hz⟩ := h2 f0 hf0
          rw [hg] at hg'; cases hg'
          rw [subOf_ok hz]; exact hch g (.tuple hf0 hg) z hz
      | union c vs =>
        simp only [transformBody, except_bind_eq_ok] at h
        obtain ⟨y, hy, h⟩ := h
        obtain ⟨h1, h2, -, h4⟩ := transformList_spec hy
        have hx : x.getD (.union c vs) = .union c y.1 := by
          split at h
          · simp only [except_map_eq_ok, initErrors_ok] at h
            obtain ⟨a, ⟨rfl, -⟩, rfl⟩ := h; rfl
          · rename_i hc; cases h; rw [h4 (by simpa using hc)]; rfl
        rw [hx]
        refine .union (subOf (transform env tr n)) ha (h1.imp ?_) ?_
        · rintro f0 f' - ⟨g, z, hg, hz, rfl⟩
          exact ⟨g, hg, hsub f0 g z hg hz⟩
        · intro f0 hf0 g hg
          obtain ⟨g', z, hg', hz⟩ := h2 f0 hf0
          rw [hg] at hg'; cases hg'
          rw [subOf_ok hz]; exact hch g (.union hf0 hg) z hz
      | «structure» c d s ko =>
        simp only [transformBody, except_bind_eq_ok] at h
        obtain ⟨y, hy, h⟩ := h
        obtain ⟨h1, h2, h3⟩ := transformMembers_spec hy
        have hall : ∀ e ∈ d, ∀ g, resolve env e.2 = some g → Replaced env tr g (subOf (transform env tr n) g) := by
          intro e he g hg
          obtain ⟨g', z, hg', hz⟩ := h2 e he
          rw [hg] at hg'; cases hg'
          rw [subOf_ok hz]; exact hch g (.member he hg) z hz
        split at h
        · simp only [except_map_eq_ok, initErrors_ok] at h
          obtain ⟨a, ⟨rfl, -⟩, rfl⟩ := h
          refine .structure (subOf (transform env tr n)) ha ((All2.nameMembers (env := env) h1).imp ?_) hall
          rintro e e'' he ⟨f', ⟨hk, g, z, hg, hz, rfl⟩, he2⟩
          simp only at hk
          refine ⟨hk, g, hg, ?_⟩
          have hs := hsub e.2 g z hg hz
          rw [he2, hs, hk]
          refine resolve_of_defined (nameMember_defined ?_)
          rw [subOf_ok hz]
          cases z with
          | none => exact (hd.child (.member he hg)).here
          | some z => exact transform_defined ht hz
        · rename_i hc
          cases h
          have hsame := h3.1 (by simpa using hc)
          refine .structure (subOf (transform env tr n)) ha (.refl ?_) hall
          intro e he
          obtain ⟨g, z, hg, -⟩ := h2 e he
          obtain ⟨a, t, hn⟩ := hb.here e he g hg
          refine ⟨rfl, g, hg, ?_⟩
          rw [subOf_ok (hsame e he g hg), Option.getD_none, nameMember_named hn]
          exact hg

/-- C35. If every replacement behaves like the field it replaces, so does the transformed field. -/
theorem C35_behaves (env : Env) (tr : Field → Answer) (f f' : Field) (hb : Everywhere env (Built env) f)
    (hr : Replaced env tr f f') (hs : ∀ g g', tr g = .field g' → Same env g g') : Same env f f' := by
  induction hr with
  | field h => exact hs _ _ h
  | stop _ => exact .refl ..
  | leaf _ => exact .refl ..
  | sequence _ h1 h2 _ ih => exact same_sequence (.refl _) ⟨_, _, h1, h2, ih (hb.child (.item h1))⟩ ..
  | @map c k k' v v' r g g' _ hk h1 h2 _ ih =>
    refine same_map (.refl _) ?_ ⟨_, _, h1, h2, ih (hb.child (.value h1))⟩ _
    rcases hk with rfl | ⟨n, hk⟩
    · cases k' with
      | none => exact .none
      | some k => exact .some (.refl ..)
    · cases k with
      | none => simp only [cloneKey, Except.ok.injEq] at hk; subst hk; exact .none
      | some k =>
        simp only [cloneKey, except_map_eq_ok] at hk
        obtain ⟨k1, hk1, rfl⟩ := hk
        exact .some (clone_same_all env n k (hb.child .key) k1 hk1).1
  | tuple sub _ hl _ ih =>
    refine same_tuple (.refl _) (hl.imp ?_)
    rintro f0 f1 hm ⟨g, h1, h2⟩
    exact ⟨g, _, h1, h2, ih f0 hm g h1 (hb.child (.tuple hm h1))⟩
  | union sub _ hl _ ih =>
    refine same_union (.refl _) (hl.imp ?_)
    rintro f0 f1 hm ⟨g, h1, h2⟩
    exact ⟨g, _, h1, h2, ih f0 hm g h1 (hb.child (.union hm h1))⟩
  | «structure» sub _ hl _ ih =>
    refine same_structure (.refl _) (hl.imp ?_) ..
    rintro e e' hm ⟨hk, g, h1, h2⟩
    have hsm := ih e hm g h1 (hb.child (.member hm h1))
    refine ⟨hk.symm, g, _, h1, h2, ?_⟩
    obtain ⟨a, t, hn⟩ := hb.here e hm g h1
    rw [nameMember_named (hsm.name ▸ hn)]
    exact hsm

/-- C35. The same for processing, in terms of `transform` alone. -/
theorem C35_process (env : Env) (tr : Field → Answer) (ht : ProperAnswer tr) (n : Nat) (f : Field) (x : Option Field)
    (hb : Everywhere env (Built env) f) (hnp : Everywhere env (fun g => ∀ c d s ko, g ≠ .poly c d [] s ko) f)
    (hd : Everywhere env (fun g => ∀ s, g ≠ .undef s) f) (hs : ∀ g g', tr g = .field g' → Same env g g')
    (h : transform env tr n f = .ok x) (m : Nat) (v : Val) (ph : Phase) (ser : Bool) (anc : List Str) :
    process env m (x.getD f) v ph ser anc = process env m f v ph ser anc :=
  ((C35_behaves env tr f _ hb (C35_replaced env tr ht n f x hb hnp hd h) hs).process ..).symm

/-- C35. A polymorphic structure (with at least one variant) that the transformer leaves alone cannot be
transformed: its variants are dicts. -/
theorem C35_poly (env : Env) (tr : Field → Answer) (n : Nat) (c : Common) (d : Field) (v : Val × List (Str × Field))
    (vs : List (Val × List (Str × Field))) (s : Bool) (ko : List Str) (h : tr (.poly c d (v :: vs) s ko) = .other) :
    transform env tr (n + 1) (.poly c d (v :: vs) s ko) = .error .attributeError := by
  simp [transform, h, transformBody]

/-- C35. Only fields without error messages of their own are rebuilt: one that has them is either replaced or left
alone. -/
theorem C35_own_errors (env : Env) (tr : Field → Answer) (n : Nat) (f f' : Field) (c : Common) (hc : f.common? = some c)
    (ht : tr f = .other) (h : transform env tr n f = .ok (some f')) : c.errors = [] := by
  cases n with
  | zero => cases h
  | succ n =>
    have hf : ∀ s, f ≠ .undef s := by rintro s rfl; cases hc
    rw [transform_succ hf, ht] at h
    simp only at h
    cases f with
    | undef s => cases hc
    | leaf => cases h
    | sequence c' i a b u =>
      cases hc
      simp only [transformBody, except_bind_eq_ok] at h
      obtain ⟨x, -, h⟩ := h
      cases x with
      | none => cases h
      | some g =>
        simp only [except_map_eq_ok, initErrors_ok] at h
        obtain ⟨_, ⟨-, h | h⟩, -⟩ := h
        · cases h
        · exact h
    | map c' k v r =>
      cases hc
      simp only [transformBody, except_bind_eq_ok] at h
      obtain ⟨x, -, h⟩ := h
      cases x with
      | none => cases h
      | some g =>
        simp only [except_map_eq_ok, cloneMapWith, except_bind_eq_ok, initErrors_ok] at h
        obtain ⟨_, ⟨_, _, -, h | h⟩, -⟩ := h
        · cases h
        · exact h
    | tuple c' vs =>
      cases hc
      simp only [transformBody, except_bind_eq_ok] at h
      obtain ⟨x, -, h⟩ := h
      split at h
      · simp only [except_map_eq_ok, initErrors_ok] at h
        obtain ⟨_, ⟨-, h | h⟩, -⟩ := h
        · cases h
        · exact h
      · cases h
    | union c' vs =>
      cases hc
      simp only [transformBody, except_bind_eq_ok] at h
      obtain ⟨x, -, h⟩ := h
      split at h
      · simp only [except_map_eq_ok, initErrors_ok] at h
        obtain ⟨_, ⟨-, h | h⟩, -⟩ := h
        · cases h
        · exact h
      · cases h
    | «structure» c' d s ko =>
      cases hc
      simp only [transformBody, except_bind_eq_ok] at h
      obtain ⟨x, -, h⟩ := h
      split at h
      · simp only [except_map_eq_ok, initErrors_ok] at h
        obtain ⟨_, ⟨-, h | h⟩, -⟩ := h
        · cases h
        · exact h
      · cases h
    | poly c' d vs s ko =>
      simp only [transformBody] at h
      split at h <;> cases h

/-- C35. Where all placeholders are defined, no field has error messages of its own and no structure is polymorphic, the
only failure is RecursionError. -/
theorem C35_only_recursion (env : Env) (tr : Field → Answer) (n : Nat) (f : Field) (hf : Everywhere env NoOwnErrors f)
    (hd : Everywhere env (AllDefined env) f) (hk : Everywhere env (fun g => ∀ h, Child env g h → ∀ s, h ≠ .undef s) f)
    (hp : Everywhere env (fun g => ∀ c d vs s ko, g ≠ .poly c d vs s ko) f) (e : PyErr)
    (h : transform env tr n f = .error e) : e = .recursionError := by
  induction n generalizing f e with
  | zero => cases h; rfl
  | succ n ih =>
    have hu : ∀ s, f ≠ .undef s := by rintro s rfl; exact hd.here
    have hrec : ∀ g, Child env f g → ∀ e, transform env tr n g = .error e → e = .recursionError := fun g hg e he =>
      ih g (hf.child hg) (hd.child hg) (hk.child hg) (hp.child hg) e he
    have hno := hf.here
    have hdf := hd.here
    rw [transform_succ hu] at h
    have kid : ∀ x e, (resolve env x).isSome → (∀ g, resolve env x = some g → Child env f g) →
        transformChild env (transform env tr n) x = .error e → e = .recursionError := by
      intro x e hs hx he
      unfold transformChild at he
      cases hr : resolve env x with
      | none => rw [hr] at hs; cases hs
      | some g => rw [hr] at he; exact hrec g (hx g hr) e he
    have init : ∀ {c : Common} {g : Field} {e : PyErr}, c.errors = [] → (initErrors false c g).map some = .error e → False := by
      intro c g e hc he
      simp [initErrors, hc, Except.map] at he
    have lst : ∀ (l : List Field) e, (∀ x ∈ l, (resolve env x).isSome) → (∀ x ∈ l, ∀ g, resolve env x = some g → Child env f g) →
        transformList env (transform env tr n) l = .error e → e = .recursionError := by
      intro l
      induction l with
      | nil => intro e _ _ he; cases he
      | cons x r ihl =>
        intro e hs hx he
        simp only [transformList, except_bind_eq_error, except_pure] at he
        rcases he with he | ⟨x', _, he | ⟨_, _, he⟩⟩
        · exact kid x e (hs x (List.mem_cons_self ..)) (hx x (List.mem_cons_self ..)) he
        · exact ihl e (fun y hy => hs y (List.mem_cons_of_mem _ hy)) (fun y hy => hx y (List.mem_cons_of_mem _ hy)) he
        · cases he
    have mem : ∀ (l : List (Str × Field)) e, (∀ x ∈ l, (resolve env x.2).isSome) →
        (∀ x ∈ l, ∀ g, resolve env x.2 = some g → Child env f g) →
        transformMembers env (transform env tr n) l = .error e → e = .recursionError := by
      intro l
      induction l with
      | nil => intro e _ _ he; cases he
      | cons x r ihl =>
        intro e hs hx he
        simp only [transformMembers, except_bind_eq_error, except_pure] at he
        rcases he with he | ⟨x', _, he | ⟨_, _, he⟩⟩
        · exact kid x.2 e (hs x (List.mem_cons_self ..)) (hx x (List.mem_cons_self ..)) he
        · exact ihl e (fun y hy => hs y (List.mem_cons_of_mem _ hy)) (fun y hy => hx y (List.mem_cons_of_mem _ hy)) he
        · cases he
    cases ht : tr f with
    | itself => rw [ht] at h; cases h
    | field g => rw [ht] at h; cases h
    | no => rw [ht] at h; cases h
    | other =>
      rw [ht] at h
      simp only at h
      cases f with
      | undef s => exact absurd rfl (hu s)
      | leaf => cases h
      | sequence c i a b u =>
        simp only [transformBody, except_bind_eq_error] at h
        rcases h with h | ⟨x, -, h⟩
        · exact kid i e hdf (fun g hg => .item hg) h
        · cases x with
          | none => cases h
          | some g => exact (init (hno c rfl) h).elim
      | map c k v r =>
        simp only [transformBody, except_bind_eq_error] at h
        rcases h with h | ⟨x, -, h⟩
        · exact kid v e hdf (fun g hg => .value hg) h
        · cases x with
          | none => cases h
          | some g =>
            simp only [cloneMapWith] at h
            cases k with
            | none => exact (init (c := c) (g := .map c none g r) (e := e) (hno c rfl) h).elim
            | some k =>
              simp only [cloneKey] at h
              cases hc : clone env n k with
              | ok k' => rw [hc] at h; exact (init (c := c) (g := .map c (some k') g r) (e := e) (hno c rfl) h).elim
              | error e' =>
                rw [hc] at h; cases h
                exact C53_only_recursion env n k (hf.child .key) (hk.here k .key) (hk.child .key) e hc
      | tuple c vs =>
        simp only [transformBody, except_bind_eq_error] at h
        rcases h with h | ⟨x, -, h⟩
        · exact lst vs e hdf (fun x hx g hg => .tuple hx hg) h
        · split at h
          · exact (init (hno c rfl) h).elim
          · cases h
      | union c vs =>
        simp only [transformBody, except_bind_eq_error] at h
        rcases h with h | ⟨x, -, h⟩
        · exact lst vs e hdf (fun x hx g hg => .union hx hg) h
        · split at h
          · exact (init (hno c rfl) h).elim
          · cases h
      | «structure» c d s ko =>
        simp only [transformBody, except_bind_eq_error] at h
        rcases h with h | ⟨x, -, h⟩
        · exact mem d e hdf (fun x hx g hg => .member hx hg) h
        · split at h
          · exact (init (hno c rfl) h).elim
          · cases h
      | poly c d vs s ko => exact absurd rfl (hp.here c d vs s ko)

namespace Ex

/-- Replaces integers by text, stops at tuples. -/
def intToText : Field → Answer
  | .leaf c (.integer ..) => .field (.leaf c (.text none none none true))
  | .tuple .. => .no
  | _ => .other

/-- Replaces titles. -/
def retitle : Field → Answer
  | .leaf c k => .field (.leaf { c with title := .str c!"T" } k)
  | _ => .other

end Ex

example : ProperAnswer Ex.intToText ∧ transform Ex.env Ex.intToText 4
    (.structure {} [(c!"a", .leaf { name := some c!"a" } (.integer none none)), (c!"t", .tuple { name := some c!"t" } [Ex.int]),
      (c!"m", .map { name := some c!"m" } (some Ex.int) (.sequence {} Ex.int none none false) [])] true []) =
    .ok (some (.structure {} [(c!"a", .leaf { name := some c!"a" } (.text none none none true)), (c!"t", .tuple { name := some c!"t" } [Ex.int]),
      (c!"m", .map { name := some c!"m" } (some Ex.int) (.sequence {} Ex.text none none false) [])] true [])) := by
  refine ⟨fun f g h s => ?_, rfl⟩
  unfold Ex.intToText at h
  split at h <;> cases h
  simp

/-- A structure with error messages of its own cannot be rebuilt, but it can be replaced or left alone. -/
example : transform Ex.env Ex.intToText 2 (.structure { errors := [⟨c!"x", c!"t", []⟩] } [(c!"a", Ex.int)] true []) =
      .error .attributeError ∧
    transform Ex.env Ex.intToText 2 (.structure { errors := [⟨c!"x", c!"t", []⟩] } [(c!"a", Ex.text)] true []) = .ok none := ⟨rfl, rfl⟩

example : transform Ex.env Ex.intToText 1 (.sequence {} Ex.int none none false) = .error .recursionError := rfl

/-- The hypotheses of `C35_process`. -/
example : (∀ g g', Ex.retitle g = .field g' → Same Ex.env g g') ∧ ProperAnswer Ex.retitle ∧
    Everywhere Ex.env (Built Ex.env) (.sequence {} Ex.int none none false) ∧
    transform Ex.env Ex.retitle 3 (.sequence {} Ex.int none none false) =
      .ok (some (.sequence {} (.leaf { title := .str c!"T" } (.integer none none)) none none false)) := by
  refine ⟨fun g g' h => ?_, fun f g h s => ?_, .mk' trivial fun g hg => ?_, rfl⟩
  · unfold Ex.retitle at h
    split at h <;> cases h
    refine same_leaf ?_ _
    exact ⟨rfl, rfl, rfl, rfl, rfl, rfl, rfl, rfl⟩
  · unfold Ex.retitle at h
    split at h <;> cases h
    simp
  · cases hg with
    | item hr => cases hr; exact .leaf trivial

end Scheme
