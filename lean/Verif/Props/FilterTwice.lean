import Verif.Props.Filter
import Verif.Spec.FilterTwice

/-! C88: filtering again and filtering in steps. -/

namespace Scheme

namespace FT

theorem passes_true {o : Outer} {p : Params} {f : Field} :
    Passes o p true f ↔ ∀ a ∈ p, ParamMatches o f a := by
  unfold Passes
  constructor
  · rintro (rfl | ⟨-, h⟩ | ⟨h, -⟩)
    · simp
    · exact h
    · cases h
  · exact fun h => .inr (.inl ⟨rfl, h⟩)

theorem passes_append {o : Outer} {p q : Params} {f : Field} :
    Passes o (p ++ q) true f ↔ Passes o p true f ∧ Passes o q true f := by
  simp only [passes_true, List.mem_append]
  exact ⟨fun h => ⟨fun a ha => h a (.inl ha), fun a ha => h a (.inr ha)⟩, fun h a ha => ha.elim (h.1 a) (h.2 a)⟩

theorem ownAttrs_left {o : Outer} {p q : Params} (h : OwnAttrs o (p ++ q)) : OwnAttrs o p :=
  fun a ha => h a (List.mem_append.2 (.inl ha))

theorem ownAttrs_right {o : Outer} {p q : Params} (h : OwnAttrs o (p ++ q)) : OwnAttrs o q :=
  fun a ha => h a (List.mem_append.2 (.inr ha))

/-- A field that was filtered is not a placeholder. -/
theorem filter_defined {env : Env} {o : Outer} {p : Params} {n : Nat} {all : Bool} {f : Field} {x : Filtered}
    (h : filter env o p n all f = .ok x) : ∀ s, f ≠ .undef s := by
  rintro s rfl
  cases n <;> simp [filter] at h

theorem gone_iff {env : Env} {o : Outer} {p : Params} {n : Nat} {all : Bool} {f : Field} {x : Filtered}
    (h : filter env o p n all f = .ok x) : x = .gone ↔ ¬ Passes o p all f := by
  cases n with
  | zero => simp [filter] at h
  | succ n =>
    rw [← C33_filter_gone env o p n all f (filter_defined h), h]
    simp

/-- The result of a filter has the attributes of the field, and is not a placeholder. -/
theorem result_common {env : Env} {o : Outer} {p : Params} {n : Nat} {all : Bool} {f : Field} {x : Filtered}
    (h : filter env o p n all f = .ok x) : (x.result f).common? = f.common? ∧ ∀ s, x.result f ≠ .undef s := by
  cases x with
  | gone => exact ⟨rfl, filter_defined h⟩
  | same => exact ⟨rfl, filter_defined h⟩
  | new g => exact ⟨filter_new_common h, filter_new_defined h⟩

theorem named_of_common {f g : Field} (h : g.common? = f.common?) (hg : ∀ s, g ≠ .undef s) {a : Char} {s : Str}
    (hn : f.name = some (a :: s)) : g.name = some (a :: s) := by
  have : ∀ f : Field, f.name = f.common?.bind (·.name) := by intro f; cases f <;> rfl
  rw [this, h, ← this, hn]

theorem isEmpty_nameMembers {env : Env} {l : List (Str × Field)} : (nameMembers env l).isEmpty = l.isEmpty := by
  cases l <;> rfl

section
variable {env : Env} {P Q R : Bool → Field → Except EditErr Filtered}

/-- Filtering by `R` is filtering by `P` and then by `Q`, for the field `g`. -/
def Steps (P Q R : Bool → Field → Except EditErr Filtered) (g : Field) : Prop :=
  ∀ x, P true g = .ok x → (∀ s, x.result g ≠ .undef s) ∧ (x = .gone → R true g = .ok .gone) ∧
    ∀ y, x ≠ .gone → Q true (x.result g) = .ok y → R true g = .ok (x.andThen y)

theorem child_defined {f g : Field} (h : ∀ s, f ≠ .undef s) :
    filterChild env P true f = .ok g' ↔ P true f = .ok g' := by
  unfold filterChild
  rw [resolve_of_defined h]

theorem slots_same {all : Bool} {fs : List Field} {r : List Field × Bool} (h : filterSlots env P all fs = .ok r)
    (hr : r.2 = false) : r.1 = fs := by
  induction fs generalizing r with
  | nil => simp only [filterSlots, Except.ok.injEq] at h; subst h; rfl
  | cons f t ih =>
    simp only [filterSlots, except_bind_eq_ok] at h
    obtain ⟨x, hx, h⟩ := h
    cases x with
    | gone => cases h
    | same =>
      simp only [except_bind_eq_ok, except_pure, Except.ok.injEq] at h
      obtain ⟨r', hr', rfl⟩ := h
      simp only [Filtered.isNew, Bool.false_or] at hr
      simp [Filtered.get, ih hr' hr]
    | new g =>
      simp only [except_bind_eq_ok, except_pure, Except.ok.injEq] at h
      obtain ⟨r', hr', rfl⟩ := h
      cases hr

theorem slots_steps {fs : List Field} {r1 r2 : List Field × Bool}
    (H : ∀ f ∈ fs, ∀ g, resolve env f = some g → Steps P Q R g)
    (h1 : filterSlots env P true fs = .ok r1) (h2 : filterSlots env Q true r1.1 = .ok r2) :
    filterSlots env R true fs = .ok (r2.1, r1.2 || r2.2) := by
  induction fs generalizing r1 r2 with
  | nil =>
    simp only [filterSlots, Except.ok.injEq] at h1; subst h1
    simp only [filterSlots, Except.ok.injEq] at h2; subst h2
    rfl
  | cons f t ih =>
    simp only [filterSlots, except_bind_eq_ok] at h1
    obtain ⟨x, hx, h1⟩ := h1
    obtain ⟨g, hg, hx⟩ := filterChild_ok.1 hx
    obtain ⟨hd, -, hs⟩ := H f (List.mem_cons_self ..) g hg x hx
    have ih := @ih
    cases x with
    | gone => cases h1
    | same =>
      simp only [except_bind_eq_ok, except_pure, Except.ok.injEq] at h1
      obtain ⟨r1', hr1, rfl⟩ := h1
      simp only [filterSlots, Filtered.get, except_bind_eq_ok] at h2
      obtain ⟨y, hy, h2⟩ := h2
      obtain ⟨g', hg', hy⟩ := filterChild_ok.1 hy
      rw [hg] at hg'; cases hg'
      have hz := hs y (by simp) hy
      have hc : filterChild env R true f = .ok y := filterChild_ok.2 ⟨g, hg, by cases y <;> exact hz⟩
      cases y with
      | gone => cases h2
      | same =>
        simp only [except_bind_eq_ok, except_pure, Except.ok.injEq] at h2
        obtain ⟨r2', hr2, rfl⟩ := h2
        have := ih (fun f hf => H f (List.mem_cons_of_mem _ hf)) hr1 hr2
        simp [filterSlots, hc, this, Filtered.get, Filtered.isNew]
      | new g2 =>
        simp only [except_bind_eq_ok, except_pure, Except.ok.injEq] at h2
        obtain ⟨r2', hr2, rfl⟩ := h2
        have := ih (fun f hf => H f (List.mem_cons_of_mem _ hf)) hr1 hr2
        simp [filterSlots, hc, this, Filtered.get, Filtered.isNew]
    | new g1 =>
      simp only [except_bind_eq_ok, except_pure, Except.ok.injEq] at h1
      obtain ⟨r1', hr1, rfl⟩ := h1
      simp only [filterSlots, Filtered.get, except_bind_eq_ok] at h2
      obtain ⟨y, hy, h2⟩ := h2
      obtain ⟨g', hg', hy⟩ := filterChild_ok.1 hy
      rw [resolve_of_defined (f := g1) hd] at hg'; cases hg'
      have hz := hs y (by simp) hy
      have hc : filterChild env R true f = .ok (Filtered.andThen (.new g1) y) := filterChild_ok.2 ⟨g, hg, hz⟩
      cases y with
      | gone => cases h2
      | same =>
        simp only [except_bind_eq_ok, except_pure, Except.ok.injEq] at h2
        obtain ⟨r2', hr2, rfl⟩ := h2
        have := ih (fun f hf => H f (List.mem_cons_of_mem _ hf)) hr1 hr2
        simp [filterSlots, hc, this, Filtered.get, Filtered.isNew, Filtered.andThen]
      | new g2 =>
        simp only [except_bind_eq_ok, except_pure, Except.ok.injEq] at h2
        obtain ⟨r2', hr2, rfl⟩ := h2
        have := ih (fun f hf => H f (List.mem_cons_of_mem _ hf)) hr1 hr2
        simp [filterSlots, hc, this, Filtered.get, Filtered.isNew, Filtered.andThen]

/-- When the first filter changes no member. -/
theorem members_unchanged {defn : List (Str × Field)} {r1 r2 : List (Str × Field) × Bool}
    (H : ∀ e ∈ defn, ∀ g, resolve env e.2 = some g → Steps P Q R g)
    (h1 : filterMembers env P defn = .ok r1) (hr : r1.2 = false) (h2 : filterMembers env Q defn = .ok r2) :
    filterMembers env R defn = .ok r2 := by
  induction defn generalizing r1 r2 with
  | nil => exact h2
  | cons e t ih =>
    obtain ⟨nm, f⟩ := e
    simp only [filterMembers, except_bind_eq_ok, except_pure, Except.ok.injEq] at h1 h2
    obtain ⟨x, hx, r1', hr1, rfl⟩ := h1
    obtain ⟨y, hy, r2', hr2, rfl⟩ := h2
    obtain ⟨g, hg, hx⟩ := filterChild_ok.1 hx
    obtain ⟨g', hg', hy⟩ := filterChild_ok.1 hy
    rw [hg] at hg'; cases hg'
    obtain ⟨hd, -, hs⟩ := H _ (List.mem_cons_self ..) g hg x hx
    cases x with
    | gone => cases hr
    | new g1 => cases hr
    | same =>
      have hz := hs y (by simp) hy
      have hc : filterChild env R true f = .ok y := filterChild_ok.2 ⟨g, hg, by cases y <;> exact hz⟩
      have := ih (fun f hf => H f (List.mem_cons_of_mem _ hf)) hr1 hr hr2
      simp [filterMembers, hc, this, except_bind_ok]

/-- When the second filter is applied to the members that the first has left. -/
theorem members_steps {defn : List (Str × Field)} {r1 r2 : List (Str × Field) × Bool}
    (H : ∀ e ∈ defn, ∀ g, resolve env e.2 = some g → Steps P Q R g)
    (hn : ∀ e ∈ defn, ∀ g x, resolve env e.2 = some g → P true g = .ok x → ∃ a s, (x.result g).name = some (a :: s))
    (hn' : ∀ g x, Q true g = .ok x → (∀ s, x.result g ≠ .undef s) ∧ (x.result g).name = g.name)
    (h1 : filterMembers env P defn = .ok r1) (h2 : filterMembers env Q (nameMembers env r1.1) = .ok r2) :
    ∃ r3, filterMembers env R defn = .ok (r3, r1.2 || r2.2) ∧ nameMembers env r3 = nameMembers env r2.1 ∧
      (r2.2 = false → nameMembers env r2.1 = nameMembers env r1.1) := by
  induction defn generalizing r1 r2 with
  | nil =>
    simp only [filterMembers, Except.ok.injEq] at h1; subst h1
    simp only [nameMembers, filterMembers, Except.ok.injEq] at h2; subst h2
    exact ⟨[], rfl, rfl, fun _ => rfl⟩
  | cons e t ih =>
    obtain ⟨nm, f⟩ := e
    simp only [filterMembers, except_bind_eq_ok, except_pure, Except.ok.injEq] at h1
    obtain ⟨x, hx, r1', hr1, rfl⟩ := h1
    obtain ⟨g, hg, hx⟩ := filterChild_ok.1 hx
    obtain ⟨hd, hgone, hs⟩ := H _ (List.mem_cons_self ..) g hg x hx
    obtain ⟨a, s, hnm⟩ := hn _ (List.mem_cons_self ..) g x hg hx
    have ih := @ih
    by_cases hxg : x = .gone
    · subst hxg
      have hc : filterChild env R true f = .ok .gone := filterChild_ok.2 ⟨g, hg, hgone rfl⟩
      obtain ⟨r3, e1, e2, e3⟩ := ih (fun f hf => H f (List.mem_cons_of_mem _ hf)) (fun f hf => hn f (List.mem_cons_of_mem _ hf)) hr1 h2
      refine ⟨r3, ?_, e2, e3⟩
      simp [filterMembers, hc, e1, except_bind_ok, keepMember]
    · have hk : keepMember nm f x r1' = ((nm, x.get f) :: r1'.1, x.isNew || r1'.2) := by
        cases x with
        | gone => exact absurd rfl hxg
        | same => simp [keepMember, Filtered.get, Filtered.isNew]
        | new g => simp [keepMember, Filtered.get, Filtered.isNew]
      have hres : (resolve env (x.get f)).getD (x.get f) = x.result g := by
        cases x with
        | gone => exact absurd rfl hxg
        | same => simp [Filtered.get, hg, Filtered.result]
        | new g1 => simp [Filtered.get, resolve_of_defined (f := g1) hd, Filtered.result]
      rw [hk] at h2 ⊢
      simp only [nameMembers, hres, nameMember_named hnm, filterMembers, except_bind_eq_ok, except_pure, Except.ok.injEq] at h2
      obtain ⟨y, hy, r2', hr2, rfl⟩ := h2
      obtain ⟨g', hg', hy⟩ := filterChild_ok.1 hy
      rw [resolve_of_defined hd] at hg'; cases hg'
      have hz := hs y hxg hy
      have hc : filterChild env R true f = .ok (x.andThen y) := filterChild_ok.2 ⟨g, hg, hz⟩
      obtain ⟨hyd, hyn⟩ := hn' _ y hy
      obtain ⟨r3, e1, e2, e3⟩ := ih (fun f hf => H f (List.mem_cons_of_mem _ hf)) (fun f hf => hn f (List.mem_cons_of_mem _ hf)) hr1 hr2
      by_cases hyg : y = .gone
      · subst hyg
        have hzg : x.andThen .gone = .gone := by cases x <;> rfl
        refine ⟨r3, ?_, e2, fun h => nomatch h⟩
        simp [filterMembers, hc, hzg, e1, except_bind_ok, keepMember]
      · refine ⟨(nm, (x.andThen y).get f) :: r3, ?_, ?_, ?_⟩
        · cases x with
          | gone => exact absurd rfl hxg
          | same =>
            cases y with
            | gone => exact absurd rfl hyg
            | same => simp [filterMembers, hc, e1, except_bind_ok, keepMember, Filtered.andThen, Filtered.get, Filtered.isNew]
            | new g2 => simp [filterMembers, hc, e1, except_bind_ok, keepMember, Filtered.andThen, Filtered.get, Filtered.isNew]
          | new g1 =>
            cases y with
            | gone => exact absurd rfl hyg
            | same => simp [filterMembers, hc, e1, except_bind_ok, keepMember, Filtered.andThen, Filtered.get, Filtered.isNew]
            | new g2 => simp [filterMembers, hc, e1, except_bind_ok, keepMember, Filtered.andThen, Filtered.get, Filtered.isNew]
        · cases x with
          | gone => exact absurd rfl hxg
          | same =>
            cases y with
            | gone => exact absurd rfl hyg
            | same => simp [keepMember, Filtered.andThen, Filtered.get, Filtered.result, nameMembers, e2, hg, resolve_of_defined hd]
                      exact congrArg _ (congrArg (Option.getD · _) (resolve_of_defined hd).symm)
            | new g2 => simp [keepMember, Filtered.andThen, Filtered.get, nameMembers, e2]
          | new g1 =>
            cases y with
            | gone => exact absurd rfl hyg
            | same => simp [keepMember, Filtered.andThen, Filtered.get, Filtered.result, nameMembers, e2]
            | new g2 => simp [keepMember, Filtered.andThen, Filtered.get, nameMembers, e2]
        · intro hf
          cases y with
          | gone => exact absurd rfl hyg
          | new g2 => cases hf
          | same =>
            have := e3 hf
            simp only [keepMember, nameMembers, this, hres, resolve_of_defined hd, Option.getD_some]

/-- Where filtering by `Q` fails after `P`, filtering by `R` fails in the same way. -/
def Fails (P Q R : Bool → Field → Except EditErr Filtered) (g : Field) : Prop :=
  ∀ x e, P true g = .ok x → x ≠ .gone → Q true (x.result g) = .error e → R true g = .error e

theorem slots_fails {fs : List Field} {r1 : List Field × Bool} {e : EditErr}
    (H : ∀ f ∈ fs, ∀ g, resolve env f = some g → Steps P Q R g ∧ Fails P Q R g)
    (h1 : filterSlots env P true fs = .ok r1) (h2 : filterSlots env Q true r1.1 = .error e) :
    filterSlots env R true fs = .error e := by
  induction fs generalizing r1 with
  | nil =>
    simp only [filterSlots, Except.ok.injEq] at h1; subst h1
    cases h2
  | cons f t ih =>
    simp only [filterSlots, except_bind_eq_ok] at h1
    obtain ⟨x, hx, h1⟩ := h1
    obtain ⟨g, hg, hx⟩ := filterChild_ok.1 hx
    obtain ⟨hst, hfl⟩ := H f (List.mem_cons_self ..) g hg
    obtain ⟨hd, -, hs⟩ := hst x hx
    have hfl := hfl x
    have key : x ≠ .gone → ∃ r1', filterSlots env P true t = .ok r1' ∧ r1.1 = x.get f :: r1'.1 := by
      intro _
      cases x with
      | gone => cases h1
      | same =>
        simp only [except_bind_eq_ok, except_pure, Except.ok.injEq] at h1
        obtain ⟨r1', hr1, rfl⟩ := h1
        exact ⟨r1', hr1, rfl⟩
      | new g1 =>
        simp only [except_bind_eq_ok, except_pure, Except.ok.injEq] at h1
        obtain ⟨r1', hr1, rfl⟩ := h1
        exact ⟨r1', hr1, rfl⟩
    by_cases hxg : x = .gone
    · subst hxg; cases h1
    obtain ⟨r1', hr1, hl⟩ := key hxg
    rw [hl] at h2
    have hres : resolve env (x.get f) = some (x.result g) := by
      cases x with
      | gone => exact absurd rfl hxg
      | same => exact hg
      | new g1 => exact resolve_of_defined (f := g1) hd
    have hch : filterChild env Q true (x.get f) = Q true (x.result g) := by unfold filterChild; rw [hres]
    have hcr : filterChild env R true f = R true g := by unfold filterChild; rw [hg]
    simp only [filterSlots, hch] at h2
    simp only [filterSlots, hcr]
    cases hy : Q true (x.result g) with
    | error e' =>
      rw [hy] at h2
      cases h2
      rw [hfl e hx hxg hy]; rfl
    | ok y =>
      rw [hy] at h2
      rw [hs y hxg hy]
      have ih := ih (fun f hf => H f (List.mem_cons_of_mem _ hf)) hr1
      cases y with
      | gone =>
        have : x.andThen .gone = .gone := by cases x <;> rfl
        rw [this]; exact h2
      | same =>
        cases ht : filterSlots env Q true r1'.1 with
        | ok r => simp [ht, except_bind_ok] at h2
        | error e' =>
          simp only [ht, except_bind_ok] at h2
          cases h2
          have := ih ht
          cases x with
          | gone => exact absurd rfl hxg
          | same => simp [Filtered.andThen, this, except_bind_ok]
          | new _ => simp [Filtered.andThen, this, except_bind_ok]
      | new g2 =>
        cases ht : filterSlots env Q true r1'.1 with
        | ok r => simp [ht, except_bind_ok] at h2
        | error e' =>
          simp only [ht, except_bind_ok] at h2
          cases h2
          have := ih ht
          cases x with
          | gone => exact absurd rfl hxg
          | same => simp [Filtered.andThen, this, except_bind_ok]
          | new _ => simp [Filtered.andThen, this, except_bind_ok]

theorem members_fails {defn : List (Str × Field)} {r1 : List (Str × Field) × Bool} {e : EditErr}
    (H : ∀ e ∈ defn, ∀ g, resolve env e.2 = some g → Steps P Q R g ∧ Fails P Q R g)
    (hn : ∀ e ∈ defn, ∀ g x, resolve env e.2 = some g → P true g = .ok x → ∃ a s, (x.result g).name = some (a :: s))
    (h1 : filterMembers env P defn = .ok r1) (h2 : filterMembers env Q (nameMembers env r1.1) = .error e) :
    filterMembers env R defn = .error e := by
  induction defn generalizing r1 with
  | nil =>
    simp only [filterMembers, Except.ok.injEq] at h1; subst h1
    cases h2
  | cons e0 t ih =>
    obtain ⟨nm, f⟩ := e0
    simp only [filterMembers, except_bind_eq_ok, except_pure, Except.ok.injEq] at h1
    obtain ⟨x, hx, r1', hr1, rfl⟩ := h1
    obtain ⟨g, hg, hx⟩ := filterChild_ok.1 hx
    obtain ⟨hst, hfl⟩ := H _ (List.mem_cons_self ..) g hg
    obtain ⟨hd, hgone, hs⟩ := hst x hx
    obtain ⟨a, s, hnm⟩ := hn _ (List.mem_cons_self ..) g x hg hx
    have ih := ih (fun f hf => H f (List.mem_cons_of_mem _ hf)) (fun f hf => hn f (List.mem_cons_of_mem _ hf)) hr1
    have hcr : filterChild env R true f = R true g := by unfold filterChild; rw [hg]
    simp only [filterMembers, hcr]
    by_cases hxg : x = .gone
    · subst hxg
      rw [hgone rfl, ih h2]; rfl
    have hk : (keepMember nm f x r1').1 = (nm, x.get f) :: r1'.1 := by
      cases x with
      | gone => exact absurd rfl hxg
      | same => rfl
      | new g => rfl
    have hres : (resolve env (x.get f)).getD (x.get f) = x.result g := by
      cases x with
      | gone => exact absurd rfl hxg
      | same => simp [Filtered.get, hg, Filtered.result]
      | new g1 => simp [Filtered.get, resolve_of_defined (f := g1) hd, Filtered.result]
    have hch : filterChild env Q true (x.result g) = Q true (x.result g) := by
      unfold filterChild; rw [resolve_of_defined hd]
    rw [hk] at h2
    simp only [nameMembers, hres, nameMember_named hnm, filterMembers, hch] at h2
    cases hy : Q true (x.result g) with
    | error e' =>
      rw [hy] at h2
      cases h2
      rw [hfl x e hx hxg hy]; rfl
    | ok y =>
      rw [hs y hxg hy]
      rw [hy] at h2
      cases ht : filterMembers env Q (nameMembers env r1'.1) with
      | ok r => simp [ht, except_bind_ok] at h2
      | error e' =>
        simp only [ht, except_bind_ok] at h2
        cases h2
        rw [ih ht]; rfl

theorem members_unchanged_fails {defn : List (Str × Field)} {r1 : List (Str × Field) × Bool} {e : EditErr}
    (H : ∀ e ∈ defn, ∀ g, resolve env e.2 = some g → Steps P Q R g ∧ Fails P Q R g)
    (h1 : filterMembers env P defn = .ok r1) (hr : r1.2 = false) (h2 : filterMembers env Q defn = .error e) :
    filterMembers env R defn = .error e := by
  induction defn generalizing r1 with
  | nil => cases h2
  | cons e0 t ih =>
    obtain ⟨nm, f⟩ := e0
    simp only [filterMembers, except_bind_eq_ok, except_pure, Except.ok.injEq] at h1
    obtain ⟨x, hx, r1', hr1, rfl⟩ := h1
    obtain ⟨g, hg, hx⟩ := filterChild_ok.1 hx
    obtain ⟨hst, hfl⟩ := H _ (List.mem_cons_self ..) g hg
    obtain ⟨hd, hgone, hs⟩ := hst x hx
    cases x with
    | gone => cases hr
    | new g1 => cases hr
    | same =>
    have ih := ih (fun f hf => H f (List.mem_cons_of_mem _ hf)) hr1 hr
    have hcr : filterChild env R true f = R true g := by unfold filterChild; rw [hg]
    have hch : filterChild env Q true f = Q true g := by unfold filterChild; rw [hg]
    simp only [filterMembers, hcr]
    simp only [filterMembers, hch] at h2
    cases hy : Q true g with
    | error e' =>
      rw [hy] at h2
      cases h2
      rw [hfl _ e hx (by simp) hy]; rfl
    | ok y =>
      rw [hs y (by simp) hy]
      rw [hy] at h2
      cases ht : filterMembers env Q t with
      | ok r => simp [ht, except_bind_ok] at h2
      | error e' =>
        simp only [ht, except_bind_ok] at h2
        cases h2
        rw [ih ht]; rfl

/-- Filtering by `P` again changes nothing. -/
def Once (P : Bool → Field → Except EditErr Filtered) (all : Bool) (g : Field) : Prop :=
  ∀ x, P all g = .ok x → x ≠ .gone → P all (x.result g) = .ok .same ∧ ∀ s, x.result g ≠ .undef s

theorem slots_once {all : Bool} {fs : List Field} {r : List Field × Bool}
    (H : ∀ f ∈ fs, ∀ g, resolve env f = some g → Once P all g) (h : filterSlots env P all fs = .ok r) :
    filterSlots env P all r.1 = .ok (r.1, false) := by
  induction fs generalizing r with
  | nil => simp only [filterSlots, Except.ok.injEq] at h; subst h; rfl
  | cons f t ih =>
    simp only [filterSlots, except_bind_eq_ok] at h
    obtain ⟨x, hx, h⟩ := h
    obtain ⟨g, hg, hx⟩ := filterChild_ok.1 hx
    have hs := H f (List.mem_cons_self ..) g hg x hx
    cases x with
    | gone => cases h
    | same =>
      simp only [except_bind_eq_ok, except_pure, Except.ok.injEq] at h
      obtain ⟨r', hr', rfl⟩ := h
      have := ih (fun f hf => H f (List.mem_cons_of_mem _ hf)) hr'
      have hc : filterChild env P all f = .ok .same := filterChild_ok.2 ⟨g, hg, hx⟩
      simp [filterSlots, Filtered.get, hc, this, Filtered.isNew]
    | new g1 =>
      simp only [except_bind_eq_ok, except_pure, Except.ok.injEq] at h
      obtain ⟨r', hr', rfl⟩ := h
      have := ih (fun f hf => H f (List.mem_cons_of_mem _ hf)) hr'
      obtain ⟨h1, h2⟩ := hs (by simp)
      have hc : filterChild env P all g1 = .ok .same := filterChild_ok.2 ⟨g1, resolve_of_defined (f := g1) h2, h1⟩
      simp [filterSlots, Filtered.get, hc, this, Filtered.isNew]

theorem members_once {defn : List (Str × Field)} {r : List (Str × Field) × Bool}
    (H : ∀ e ∈ defn, ∀ g, resolve env e.2 = some g → Once P true g)
    (hn : ∀ e ∈ defn, ∀ g x, resolve env e.2 = some g → P true g = .ok x → ∃ a s, (x.result g).name = some (a :: s))
    (h : filterMembers env P defn = .ok r) :
    filterMembers env P (nameMembers env r.1) = .ok (nameMembers env r.1, false) := by
  induction defn generalizing r with
  | nil => simp only [filterMembers, Except.ok.injEq] at h; subst h; rfl
  | cons e t ih =>
    obtain ⟨nm, f⟩ := e
    simp only [filterMembers, except_bind_eq_ok, except_pure, Except.ok.injEq] at h
    obtain ⟨x, hx, r', hr', rfl⟩ := h
    obtain ⟨g, hg, hx⟩ := filterChild_ok.1 hx
    have hs := H _ (List.mem_cons_self ..) g hg x hx
    obtain ⟨a, s, hnm⟩ := hn _ (List.mem_cons_self ..) g x hg hx
    have := ih (fun f hf => H f (List.mem_cons_of_mem _ hf)) (fun f hf => hn f (List.mem_cons_of_mem _ hf)) hr'
    cases x with
    | gone => exact this
    | same =>
      obtain ⟨h1, h2⟩ := hs (by simp)
      have hc : filterChild env P true g = .ok .same := filterChild_ok.2 ⟨g, resolve_of_defined (f := g) h2, h1⟩
      simp [keepMember, nameMembers, hg, nameMember_named (f := g) hnm, filterMembers, hc, this, except_bind_ok]
    | new g1 =>
      obtain ⟨h1, h2⟩ := hs (by simp)
      have hr := resolve_of_defined (env := env) (f := g1) h2
      have hc : filterChild env P true g1 = .ok .same := filterChild_ok.2 ⟨g1, hr, h1⟩
      simp [keepMember, nameMembers, hr, nameMember_named (f := g1) hnm, filterMembers, hc, this, except_bind_ok]

end

theorem result_named {env : Env} {o : Outer} {p : Params} {n : Nat} {all : Bool} {g : Field} {x : Filtered}
    (h : filter env o p n all g = .ok x) (hn : ∃ a s, g.name = some (a :: s)) : ∃ a s, (x.result g).name = some (a :: s) := by
  obtain ⟨a, s, hn⟩ := hn
  obtain ⟨h1, h2⟩ := result_common h
  exact ⟨a, s, named_of_common h1 h2 hn⟩

theorem result_name {env : Env} {o : Outer} {p : Params} {n : Nat} {all : Bool} {g : Field} {x : Filtered}
    (h : filter env o p n all g = .ok x) : (∀ s, x.result g ≠ .undef s) ∧ (x.result g).name = g.name := by
  have : ∀ f : Field, f.name = f.common?.bind (·.name) := by intro f; cases f <;> rfl
  obtain ⟨h1, h2⟩ := result_common h
  exact ⟨h2, by rw [this, h1, ← this]⟩

theorem passes_result {env : Env} {o : Outer} {p q : Params} (ho : OwnAttrs o q) {n : Nat} {all all' : Bool} {g : Field} {x : Filtered}
    (h : filter env o p n all g = .ok x) : Passes o q all' (x.result g) ↔ Passes o q all' g :=
  ⟨passes_of_common ho (result_common h).1.symm, passes_of_common ho (result_common h).1⟩

theorem keySet_again {α : Type} {k : Str} {v : α} {l : List (Str × α)} : keySet k v (keySet k v l) = keySet k v l := by
  induction l with
  | nil => simp [keySet]
  | cons e r ih =>
    obtain ⟨k', v'⟩ := e
    by_cases h : k' = k <;> simp [keySet, h, ih]

theorem cloneAspects_again {env : Env} {k : Leaf} {a : List (Str × Val)} :
    cloneAspects env k (cloneAspects env k a) = cloneAspects env k a := by
  cases k <;> first | rfl | exact keySet_again

/-- Key fields without fields below them: the depth does not matter, and copying the copy gives the copy. -/
theorem cloneKey_leaf {env : Env} {key : Option Field} (hk : ∀ k, key = some k → ∃ c l, k = .leaf c l) :
    (∀ n m, cloneKey (clone env (n + 1)) key = cloneKey (clone env (m + 1)) key) ∧
    ∀ n m key', cloneKey (clone env (n + 1)) key = .ok key' → cloneKey (clone env (m + 1)) key' = .ok key' := by
  cases key with
  | none => exact ⟨fun _ _ => rfl, fun _ _ _ h => by cases h; rfl⟩
  | some k =>
    obtain ⟨c, l, rfl⟩ := hk k rfl
    refine ⟨fun _ _ => rfl, fun n m key' h => ?_⟩
    simp only [cloneKey, except_map_eq_ok, clone, cloneStep, initErrors_ok] at h
    obtain ⟨k', ⟨rfl, h⟩, rfl⟩ := h
    simp only [cloneKey, except_map_eq_ok, clone, cloneStep, initErrors_ok, cloneAspects_again]
    exact ⟨_, ⟨rfl, h⟩, rfl⟩

theorem filter_pos {env : Env} {o : Outer} {p : Params} {n : Nat} {all : Bool} {f : Field} {x : Filtered}
    (h : filter env o p n all f = .ok x) : ∃ k, n = k + 1 := by
  cases n with
  | zero => cases h
  | succ k => exact ⟨k, rfl⟩

theorem steps (env : Env) (o : Outer) (p q : Params) (ho : OwnAttrs o (p ++ q)) :
    ∀ (n m : Nat) (f : Field) (x y : Filtered), Everywhere env (Built env) f → Everywhere env SingleShape f →
      Everywhere env (SomeMemberPasses env o (p ++ q)) f → filter env o p n true f = .ok x → x ≠ .gone →
      filter env o q m true (x.result f) = .ok y → filter env o (p ++ q) n true f = .ok (x.andThen y) := by
  intro n
  induction n with
  | zero => intro m f x y _ _ _ h; cases h
  | succ n ih =>
    intro m f x y hb hs hm h1 hx h2
    have hpass1 : Passes o p true f := Classical.byContradiction fun hn => hx ((gone_iff h1).2 hn)
    have hpr : Passes o q true (x.result f) ↔ Passes o q true f := passes_result (ownAttrs_right ho) h1
    have hdf := filter_defined h1
    by_cases hpass2 : Passes o q true f
    case neg =>
      have hyg : y = .gone := (gone_iff h2).2 (fun h => hpass2 (hpr.1 h))
      subst hyg
      have hz : x.andThen .gone = .gone := by cases x <;> rfl
      rw [hz]
      exact (C33_filter_gone env o _ n true f hdf).2 fun h => hpass2 (passes_append.1 h).2
    obtain ⟨m, rfl⟩ := filter_pos h2
    have hyg : y ≠ .gone := fun h => (gone_iff h2).1 h (hpr.2 hpass2)
    -- the children
    have hchild : ∀ g, Child env f g → Steps (filter env o p n) (filter env o q m) (filter env o (p ++ q) n) g := by
      intro g hg x' hx'
      refine ⟨(result_common hx').2, fun h => ?_, fun y' hne hy' => ih m g x' y' (hb.child hg) (hs.child hg) (hm.child hg) hx' hne hy'⟩
      subst h
      obtain ⟨k, rfl⟩ := filter_pos hx'
      exact (C33_filter_gone env o _ k true g (filter_defined hx')).2 fun h => (gone_iff hx').1 rfl (passes_append.1 h).1
    rw [filter_succ hdf, filterOwn_iff.2 (passes_append.2 ⟨hpass1, hpass2⟩)]
    rw [filter_succ hdf, filterOwn_iff.2 hpass1] at h1
    rw [filter_succ (result_common (p := p) (n := n + 1) (all := true) (by rw [filter_succ hdf, filterOwn_iff.2 hpass1]; exact h1)).2,
      filterOwn_iff.2 (hpr.2 hpass2)] at h2
    simp only [if_true] at h1 h2 ⊢
    cases f with
    | undef s => exact absurd rfl (hdf s)
    | poly c d vs s ko => exact (hs.here).elim
    | leaf c k =>
      simp only [filterBody, Except.ok.injEq] at h1; subst h1
      simp only [Filtered.result, filterBody, Except.ok.injEq] at h2; subst h2
      rfl
    | union c fs =>
      simp only [filterBody, Except.ok.injEq] at h1; subst h1
      simp only [Filtered.result, filterBody, Except.ok.injEq] at h2; subst h2
      rfl
    | sequence c item a b u =>
      simp only [filterBody, except_bind_eq_ok] at h1
      obtain ⟨x', hx', h1⟩ := h1
      obtain ⟨g, hg, hx'⟩ := filterChild_ok.1 hx'
      obtain ⟨hd, -, hst⟩ := hchild g (.item hg) x' hx'
      cases x' with
      | gone => cases h1
      | same =>
        simp only [filterOnly, Except.ok.injEq] at h1; subst h1
        simp only [Filtered.result, filterBody, except_bind_eq_ok] at h2
        obtain ⟨y', hy', h2⟩ := h2
        obtain ⟨g', hg', hy'⟩ := filterChild_ok.1 hy'
        rw [hg] at hg'; cases hg'
        have hz := hst y' (by simp) hy'
        have hc : filterChild env (filter env o (p ++ q) n) true item = .ok y' :=
          filterChild_ok.2 ⟨g, hg, by cases y' <;> exact hz⟩
        simp only [filterBody, hc, except_bind_ok, h2]
        cases y <;> rfl
      | new g1 =>
        simp only [filterOnly, except_map_eq_ok, liftEdit_ok, initErrors_ok] at h1
        obtain ⟨f1, ⟨rfl, he⟩, rfl⟩ := h1
        simp only [Filtered.result, filterBody, except_bind_eq_ok] at h2
        obtain ⟨y', hy', h2⟩ := h2
        obtain ⟨g', hg', hy'⟩ := filterChild_ok.1 hy'
        rw [resolve_of_defined (f := g1) hd] at hg'; cases hg'
        have hz := hst y' (by simp) hy'
        have hc := filterChild_ok.2 ⟨g, hg, hz⟩
        simp only [filterBody, hc, except_bind_ok]
        have hin : ∀ F, initErrors false c F = .ok F := fun F => initErrors_ok.2 ⟨rfl, he⟩
        cases y' with
        | gone => cases h2
        | same =>
          simp only [filterOnly, Except.ok.injEq] at h2; subst h2
          simp [filterOnly, Filtered.andThen, hin, liftEdit, Except.map]
        | new g2 =>
          simp only [filterOnly, hin, liftEdit, Except.map, Except.ok.injEq] at h2; subst h2
          simp [filterOnly, Filtered.andThen, hin, liftEdit, Except.map]
    | map c key value req =>
      have hkl : ∀ k, key = some k → ∃ c l, k = .leaf c l := by
        rintro k rfl
        exact hs.here
      simp only [filterBody, except_bind_eq_ok] at h1
      obtain ⟨x', hx', h1⟩ := h1
      obtain ⟨g, hg, hx'⟩ := filterChild_ok.1 hx'
      obtain ⟨n, rfl⟩ := filter_pos hx'
      obtain ⟨hd, -, hst⟩ := hchild g (.value hg) x' hx'
      cases x' with
      | gone => cases h1
      | same =>
        simp only [filterOnly, Except.ok.injEq] at h1; subst h1
        simp only [Filtered.result, filterBody, except_bind_eq_ok] at h2
        obtain ⟨y', hy', h2⟩ := h2
        obtain ⟨g', hg', hy'⟩ := filterChild_ok.1 hy'
        obtain ⟨m, rfl⟩ := filter_pos hy'
        rw [hg] at hg'; cases hg'
        have hz := hst y' (by simp) hy'
        have hc : filterChild env (filter env o (p ++ q) (n + 1)) true value = .ok y' :=
          filterChild_ok.2 ⟨g, hg, by cases y' <;> exact hz⟩
        simp only [filterBody, hc, except_bind_ok]
        simp only [cloneMapWith, (cloneKey_leaf hkl).1 m n] at h2
        simp only [cloneMapWith, h2]
        cases y <;> rfl
      | new g1 =>
        simp only [filterOnly, except_map_eq_ok, liftEdit_ok, cloneMapWith, except_bind_eq_ok, initErrors_ok] at h1
        obtain ⟨f1, ⟨key', hkey, rfl, he⟩, rfl⟩ := h1
        simp only [Filtered.result, filterBody, except_bind_eq_ok] at h2
        obtain ⟨y', hy', h2⟩ := h2
        obtain ⟨g', hg', hy'⟩ := filterChild_ok.1 hy'
        obtain ⟨m, rfl⟩ := filter_pos hy'
        rw [resolve_of_defined (f := g1) hd] at hg'; cases hg'
        have hz := hst y' (by simp) hy'
        have hc := filterChild_ok.2 ⟨g, hg, hz⟩
        simp only [filterBody, hc, except_bind_ok]
        have hin : ∀ F, initErrors false c F = .ok F := fun F => initErrors_ok.2 ⟨rfl, he⟩
        have hkey2 := (cloneKey_leaf hkl).2 n m key' hkey
        cases y' with
        | gone => cases h2
        | same =>
          simp only [filterOnly, Except.ok.injEq] at h2; subst h2
          simp [filterOnly, Filtered.andThen, hin, liftEdit, Except.map, cloneMapWith, hkey, except_bind_ok]
        | new g2 =>
          simp only [filterOnly, cloneMapWith, hkey2, except_bind_ok, hin, liftEdit, Except.map, Except.ok.injEq] at h2; subst h2
          simp [filterOnly, Filtered.andThen, hin, liftEdit, Except.map, cloneMapWith, hkey, except_bind_ok]
    | tuple c vs =>
      simp only [filterBody, except_bind_eq_ok] at h1
      obtain ⟨r1, hr1, h1⟩ := h1
      have H : ∀ f ∈ vs, ∀ g, resolve env f = some g → Steps (filter env o p n) (filter env o q m) (filter env o (p ++ q) n) g :=
        fun f hf g hg => hchild g (.tuple hf hg)
      cases hr : r1.2 with
      | false =>
        rw [hr] at h1
        simp only [Bool.false_eq_true, if_false, Except.ok.injEq] at h1; subst h1
        simp only [Filtered.result, filterBody, except_bind_eq_ok] at h2
        obtain ⟨r2, hr2, h2⟩ := h2
        rw [← slots_same hr1 hr] at hr2
        have := slots_steps H hr1 hr2
        simp only [filterBody, this, except_bind_ok, hr, Bool.false_or, h2]
        cases y <;> rfl
      | true =>
        rw [hr] at h1
        simp only [if_true, except_map_eq_ok, liftEdit_ok, initErrors_ok] at h1
        obtain ⟨f1, ⟨rfl, he⟩, rfl⟩ := h1
        have hin : ∀ F, initErrors false c F = .ok F := fun F => initErrors_ok.2 ⟨rfl, he⟩
        simp only [Filtered.result, filterBody, except_bind_eq_ok] at h2
        obtain ⟨r2, hr2, h2⟩ := h2
        have := slots_steps H hr1 hr2
        simp only [filterBody, this, except_bind_ok, hr, Bool.true_or, if_true, hin, liftEdit, Except.map]
        cases hr' : r2.2 with
        | false =>
          rw [hr'] at h2
          simp only [Bool.false_eq_true, if_false, Except.ok.injEq] at h2; subst h2
          rw [slots_same hr2 hr']; rfl
        | true =>
          rw [hr'] at h2
          simp only [if_true, hin, liftEdit, Except.map, Except.ok.injEq] at h2; subst h2
          rfl
    | «structure» c defn s ko =>
      have H : ∀ e ∈ defn, ∀ g, resolve env e.2 = some g → Steps (filter env o p n) (filter env o q m) (filter env o (p ++ q) n) g :=
        fun e he g hg => hchild g (.member he hg)
      have hn1 : ∀ e ∈ defn, ∀ g x, resolve env e.2 = some g → filter env o p n true g = .ok x →
          ∃ a s, (x.result g).name = some (a :: s) :=
        fun e he g x hg hx => result_named hx (hb.here e he g hg)
      have hn2 : ∀ g x, filter env o q m true g = .ok x → (∀ s, x.result g ≠ .undef s) ∧ (x.result g).name = g.name :=
        fun g x hx => result_name hx
      -- members remain
      have hleft : ∀ (p' : Params) (r3 : List (Str × Field) × Bool), (∀ g, Passes o (p ++ q) true g → Passes o p' true g) →
          filterMembers env (filter env o p' n) defn = .ok r3 → r3.2 = true → r3.1.isEmpty = false := by
        intro p' r3 hp' h3 h3t
        obtain ⟨-, -, i3, -⟩ := filterMembers_spec h3
        rcases hm.here with rfl | ⟨e, he, g, hg, hp⟩
        · simp only [filterMembers, Except.ok.injEq] at h3; subst h3; cases h3t
        · obtain ⟨-, i2, -, -⟩ := filterMembers_spec h3
          obtain ⟨g', z, hg', hz⟩ := i2 e he
          rw [hg] at hg'; cases hg'
          have : (e.1, z.get e.2) ∈ r3.1 := (i3 _ _).2 ⟨e.2, g, z, he, hg, hz, fun h => (gone_iff hz).1 h (hp' _ hp), rfl⟩
          cases hl : r3.1 with
          | nil => rw [hl] at this; cases this
          | cons _ _ => rfl
      simp only [filterBody, filterStructure, except_bind_eq_ok, except_map_eq_ok] at h1
      obtain ⟨o1, ⟨r1, hr1, rfl⟩, h1⟩ := h1
      cases hr : r1.2 with
      | false =>
        rw [hr] at h1
        simp only [Bool.false_and, Bool.false_eq_true, if_false, Except.ok.injEq] at h1; subst h1
        simp only [Filtered.result, filterBody, filterStructure, except_bind_eq_ok, except_map_eq_ok] at h2
        obtain ⟨o2, ⟨r2, hr2, rfl⟩, h2⟩ := h2
        have := members_unchanged H hr1 hr hr2
        rw [show Filtered.andThen .same y = y by cases y <;> rfl, ← h2]
        simp only [filterBody, filterStructure, this]
        rfl
      | true =>
        have hr1e : r1.1.isEmpty = false := hleft p r1 (fun _ h => (passes_append.1 h).1) hr1 hr
        rw [hr, hr1e] at h1
        simp only [Bool.not_false, Bool.and_self, if_true, except_map_eq_ok, liftEdit_ok, initErrors_ok] at h1
        obtain ⟨f1, ⟨rfl, he⟩, rfl⟩ := h1
        have hin : ∀ F, initErrors false c F = .ok F := fun F => initErrors_ok.2 ⟨rfl, he⟩
        simp only [Filtered.result, filterBody, filterStructure, except_bind_eq_ok, except_map_eq_ok] at h2
        obtain ⟨o2, ⟨r2, hr2, rfl⟩, h2⟩ := h2
        obtain ⟨r3, e1, e2, e3⟩ := members_steps H hn1 hn2 hr1 hr2
        rw [hr, Bool.true_or] at e1
        have hl3 := hleft _ _ (fun _ h => h) e1 rfl
        have hl2 : r2.1.isEmpty = false := by
          rw [← isEmpty_nameMembers (env := env), ← e2, isEmpty_nameMembers]; exact hl3
        have hl3' : r3.isEmpty = false := hl3
        simp only [filterBody, filterStructure, e1, Except.map, except_bind_ok, hl3', Bool.not_false, Bool.and_self, if_true, hin, liftEdit, e2]
        cases hr' : r2.2 with
        | false =>
          rw [hr'] at h2
          simp only [Bool.false_and, Bool.false_eq_true, if_false, Except.ok.injEq] at h2; subst h2
          rw [e3 hr']; rfl
        | true =>
          rw [hr', hl2] at h2
          simp only [Bool.not_false, Bool.and_self, if_true, hin, liftEdit, Except.map, Except.ok.injEq] at h2; subst h2
          rfl

theorem fails (env : Env) (o : Outer) (p q : Params) (ho : OwnAttrs o (p ++ q)) :
    ∀ (n : Nat) (f : Field) (x : Filtered) (e : EditErr), Everywhere env (Built env) f → Everywhere env SingleShape f →
      Everywhere env (SomeMemberPasses env o (p ++ q)) f → filter env o p n true f = .ok x → x ≠ .gone →
      filter env o q n true (x.result f) = .error e → filter env o (p ++ q) n true f = .error e := by
  intro n
  induction n with
  | zero => intro f x e _ _ _ h; cases h
  | succ n ih =>
    intro f x e hb hs hm h1 hx h2
    have hpass1 : Passes o p true f := Classical.byContradiction fun hn => hx ((gone_iff h1).2 hn)
    have hpr : Passes o q true (x.result f) ↔ Passes o q true f := passes_result (ownAttrs_right ho) h1
    have hdf := filter_defined h1
    have hdr := (result_common h1).2
    have hpass2 : Passes o q true (x.result f) := Classical.byContradiction fun hn => by
      rw [(C33_filter_gone env o q n true _ hdr).2 hn] at h2; cases h2
    have hchild : ∀ g, Child env f g → Steps (filter env o p n) (filter env o q n) (filter env o (p ++ q) n) g ∧
        Fails (filter env o p n) (filter env o q n) (filter env o (p ++ q) n) g := by
      intro g hg
      refine ⟨fun x' hx' => ⟨(result_common hx').2, fun h => ?_, fun y' hne hy' =>
        steps env o p q ho n n g x' y' (hb.child hg) (hs.child hg) (hm.child hg) hx' hne hy'⟩,
        fun x' e' hx' hne he => ih g x' e' (hb.child hg) (hs.child hg) (hm.child hg) hx' hne he⟩
      subst h
      obtain ⟨k, rfl⟩ := filter_pos hx'
      exact (C33_filter_gone env o _ k true g (filter_defined hx')).2 fun h => (gone_iff hx').1 rfl (passes_append.1 h).1
    rw [filter_succ hdf, filterOwn_iff.2 (passes_append.2 ⟨hpass1, hpr.1 hpass2⟩)]
    rw [filter_succ hdf, filterOwn_iff.2 hpass1] at h1
    rw [filter_succ hdr, filterOwn_iff.2 hpass2] at h2
    simp only [if_true] at h1 h2 ⊢
    cases f with
    | undef s => exact absurd rfl (hdf s)
    | poly c d vs s ko => exact (hs.here).elim
    | leaf c k =>
      simp only [filterBody, Except.ok.injEq] at h1; subst h1
      cases h2
    | union c fs =>
      simp only [filterBody, Except.ok.injEq] at h1; subst h1
      cases h2
    | sequence c item a b u =>
      simp only [filterBody, except_bind_eq_ok] at h1
      obtain ⟨x', hx', h1⟩ := h1
      obtain ⟨g, hg, hx'⟩ := filterChild_ok.1 hx'
      obtain ⟨hst, hfl⟩ := hchild g (.item hg)
      obtain ⟨hd, -, hst⟩ := hst x' hx'
      have hcr : filterChild env (filter env o (p ++ q) n) true item = filter env o (p ++ q) n true g := by
        unfold filterChild; rw [hg]
      simp only [filterBody, hcr]
      cases x' with
      | gone => cases h1
      | same =>
        simp only [filterOnly, Except.ok.injEq] at h1; subst h1
        have hch : filterChild env (filter env o q n) true item = filter env o q n true g := by unfold filterChild; rw [hg]
        simp only [Filtered.result, filterBody, hch] at h2
        cases hy : filter env o q n true g with
        | error e' =>
          rw [hy] at h2; cases h2
          rw [hfl _ e hx' (by simp) hy]; rfl
        | ok y =>
          rw [hy] at h2
          rw [hst y (by simp) hy]
          cases y <;> exact h2
      | new g1 =>
        simp only [filterOnly, except_map_eq_ok, liftEdit_ok, initErrors_ok] at h1
        obtain ⟨f1, ⟨rfl, he⟩, rfl⟩ := h1
        have hin : ∀ F, initErrors false c F = .ok F := fun F => initErrors_ok.2 ⟨rfl, he⟩
        have hch : filterChild env (filter env o q n) true g1 = filter env o q n true g1 := by
          unfold filterChild; rw [resolve_of_defined (f := g1) hd]
        simp only [Filtered.result, filterBody, hch] at h2
        cases hy : filter env o q n true g1 with
        | error e' =>
          rw [hy] at h2; cases h2
          rw [hfl _ e hx' (by simp) hy]; rfl
        | ok y =>
          rw [hy] at h2
          rw [hst y (by simp) hy]
          cases y with
          | gone => exact h2
          | same => cases h2
          | new g2 => simp [except_bind_ok, filterOnly, hin, liftEdit, Except.map] at h2
    | map c key value req =>
      have hkl : ∀ k, key = some k → ∃ c l, k = .leaf c l := by
        rintro k rfl
        exact hs.here
      simp only [filterBody, except_bind_eq_ok] at h1
      obtain ⟨x', hx', h1⟩ := h1
      obtain ⟨g, hg, hx'⟩ := filterChild_ok.1 hx'
      obtain ⟨n, rfl⟩ := filter_pos hx'
      obtain ⟨hst, hfl⟩ := hchild g (.value hg)
      obtain ⟨hd, -, hst⟩ := hst x' hx'
      have hcr : filterChild env (filter env o (p ++ q) (n + 1)) true value = filter env o (p ++ q) (n + 1) true g := by
        unfold filterChild; rw [hg]
      simp only [filterBody, hcr]
      cases x' with
      | gone => cases h1
      | same =>
        simp only [filterOnly, Except.ok.injEq] at h1; subst h1
        have hch : filterChild env (filter env o q (n + 1)) true value = filter env o q (n + 1) true g := by
          unfold filterChild; rw [hg]
        simp only [Filtered.result, filterBody, hch] at h2
        cases hy : filter env o q (n + 1) true g with
        | error e' =>
          rw [hy] at h2; cases h2
          rw [hfl _ e hx' (by simp) hy]; rfl
        | ok y =>
          rw [hy] at h2
          rw [hst y (by simp) hy]
          cases y <;> exact h2
      | new g1 =>
        simp only [filterOnly, except_map_eq_ok, liftEdit_ok, cloneMapWith, except_bind_eq_ok, initErrors_ok] at h1
        obtain ⟨f1, ⟨key', hkey, rfl, he⟩, rfl⟩ := h1
        have hin : ∀ F, initErrors false c F = .ok F := fun F => initErrors_ok.2 ⟨rfl, he⟩
        have hkey2 := (cloneKey_leaf hkl).2 n n key' hkey
        have hch : filterChild env (filter env o q (n + 1)) true g1 = filter env o q (n + 1) true g1 := by
          unfold filterChild; rw [resolve_of_defined (f := g1) hd]
        simp only [Filtered.result, filterBody, hch] at h2
        cases hy : filter env o q (n + 1) true g1 with
        | error e' =>
          rw [hy] at h2; cases h2
          rw [hfl _ e hx' (by simp) hy]; rfl
        | ok y =>
          rw [hy] at h2
          rw [hst y (by simp) hy]
          cases y with
          | gone => exact h2
          | same => cases h2
          | new g2 => simp [except_bind_ok, filterOnly, cloneMapWith, hkey2, hin, liftEdit, Except.map] at h2
    | tuple c vs =>
      simp only [filterBody, except_bind_eq_ok] at h1
      obtain ⟨r1, hr1, h1⟩ := h1
      have H : ∀ f ∈ vs, ∀ g, resolve env f = some g → _ := fun f hf g hg => hchild g (.tuple hf hg)
      have hx1 : ∃ vs1, x.result (.tuple c vs) = .tuple c vs1 ∧ vs1 = r1.1 ∧ (r1.2 = true → c.errors = []) := by
        cases hr : r1.2 with
        | false =>
          rw [hr] at h1
          simp only [Bool.false_eq_true, if_false, Except.ok.injEq] at h1; subst h1
          exact ⟨vs, rfl, (slots_same hr1 hr).symm, fun h => nomatch h⟩
        | true =>
          rw [hr] at h1
          simp only [if_true, except_map_eq_ok, liftEdit_ok, initErrors_ok] at h1
          obtain ⟨f1, ⟨rfl, he⟩, rfl⟩ := h1
          exact ⟨r1.1, rfl, rfl, fun _ => by simpa using he⟩
      obtain ⟨vs1, e1, rfl, he⟩ := hx1
      rw [e1] at h2
      simp only [filterBody] at h2 ⊢
      cases hr2 : filterSlots env (filter env o q n) true r1.1 with
      | error e' =>
        rw [hr2] at h2; cases h2
        rw [slots_fails H hr1 hr2]; rfl
      | ok r2 =>
        rw [hr2] at h2
        rw [slots_steps (fun f hf g hg => (H f hf g hg).1) hr1 hr2]
        simp only [except_bind_ok] at h2 ⊢
        cases hr' : r2.2 with
        | false => rw [hr'] at h2; cases h2
        | true =>
          rw [hr'] at h2
          simpa using h2
    | «structure» c defn s ko =>
      have H : ∀ e ∈ defn, ∀ g, resolve env e.2 = some g → _ := fun e he g hg => hchild g (.member he hg)
      have hn1 : ∀ e ∈ defn, ∀ g x, resolve env e.2 = some g → filter env o p n true g = .ok x →
          ∃ a s, (x.result g).name = some (a :: s) :=
        fun e he g x hg hx => result_named hx (hb.here e he g hg)
      simp only [filterBody, filterStructure, except_bind_eq_ok, except_map_eq_ok] at h1
      obtain ⟨o1, ⟨r1, hr1, rfl⟩, h1⟩ := h1
      cases hr : r1.2 with
      | false =>
        rw [hr] at h1
        simp only [Bool.false_and, Bool.false_eq_true, if_false, Except.ok.injEq] at h1; subst h1
        simp only [Filtered.result, filterBody, filterStructure] at h2 ⊢
        cases hr2 : filterMembers env (filter env o q n) defn with
        | error e' =>
          rw [hr2] at h2; cases h2
          rw [members_unchanged_fails H hr1 hr hr2]; rfl
        | ok r2 =>
          rw [hr2] at h2
          rw [members_unchanged (fun f hf g hg => (H f hf g hg).1) hr1 hr hr2]
          exact h2
      | true =>
        rw [hr, Bool.true_and] at h1
        cases hre : r1.1.isEmpty with
        | true =>
          exfalso
          rcases hm.here with rfl | ⟨e, he, g, hg, hp⟩
          · simp only [filterMembers, Except.ok.injEq] at hr1; subst hr1; cases hr
          · obtain ⟨-, i2, i3, -⟩ := filterMembers_spec hr1
            obtain ⟨g', z, hg', hz⟩ := i2 e he
            rw [hg] at hg'; cases hg'
            have : (e.1, z.get e.2) ∈ r1.1 :=
              (i3 _ _).2 ⟨e.2, g, z, he, hg, hz, fun h => (gone_iff hz).1 h (passes_append.1 hp).1, rfl⟩
            cases hl : r1.1 with
            | nil => rw [hl] at this; cases this
            | cons _ _ => rw [hl] at hre; cases hre
        | false =>
          rw [hre] at h1
          simp only [Bool.not_false, if_true, except_map_eq_ok, liftEdit_ok, initErrors_ok] at h1
          obtain ⟨f1, ⟨rfl, he⟩, rfl⟩ := h1
          have hin : ∀ F, initErrors false c F = .ok F := fun F => initErrors_ok.2 ⟨rfl, he⟩
          simp only [Filtered.result, filterBody, filterStructure] at h2 ⊢
          cases hr2 : filterMembers env (filter env o q n) (nameMembers env r1.1) with
          | error e' =>
            rw [hr2] at h2; cases h2
            rw [members_fails H hn1 hr1 hr2]; rfl
          | ok r2 =>
            exfalso
            rw [hr2] at h2
            simp only [Except.map, except_bind_ok, hin, liftEdit] at h2
            split at h2 <;> cases h2

theorem once (env : Env) (o : Outer) (p : Params) (ho : OwnAttrs o p) :
    ∀ (n : Nat) (all : Bool) (f : Field) (x : Filtered), Everywhere env (Built env) f → Everywhere env SingleShape f →
      filter env o p n all f = .ok x → x ≠ .gone → filter env o p n all (x.result f) = .ok .same := by
  intro n
  induction n with
  | zero => intro all f x _ _ h; cases h
  | succ n ih =>
    intro all f x hb hs h hx
    have hpass : Passes o p all f := Classical.byContradiction fun hn => hx ((gone_iff h).2 hn)
    have hdf := filter_defined h
    obtain ⟨hcom, hdr⟩ := result_common h
    have hpr := passes_of_common ho hcom hpass
    have hchild : ∀ all g, Child env f g → Once (filter env o p n) all g :=
      fun all g hg x' hx' hne => ⟨ih all g x' (hb.child hg) (hs.child hg) hx' hne, (result_common hx').2⟩
    have h0 := h
    rw [filter_succ hdf, filterOwn_iff.2 hpass] at h
    cases x with
    | gone => exact absurd rfl hx
    | same => exact h0
    | new g =>
    rw [filter_succ hdr, filterOwn_iff.2 hpr]
    simp only [if_true] at h ⊢
    show filterBody env n (filter env o p n) all g = _
    cases f with
    | undef s => exact absurd rfl (hdf s)
    | poly c d vs s ko => exact (hs.here).elim
    | leaf c k => cases h
    | union c fs => cases h
    | sequence c item a b u =>
      simp only [filterBody, except_bind_eq_ok] at h
      obtain ⟨x', hx', h⟩ := h
      obtain ⟨g0, hg, hx'⟩ := filterChild_ok.1 hx'
      cases x' with
      | gone => cases h
      | same => cases h
      | new g1 =>
        simp only [filterOnly, except_map_eq_ok, liftEdit_ok, initErrors_ok] at h
        obtain ⟨f1, ⟨rfl, he⟩, hf1⟩ := h
        cases hf1
        obtain ⟨h1, h2⟩ := hchild all g0 (.item hg) _ hx' (by simp)
        have hc := (filterChild_ok (env := env)).2 ⟨g1, resolve_of_defined (f := g1) h2, h1⟩
        simp only [filterBody, hc, except_bind_ok, filterOnly]
    | map c key value req =>
      simp only [filterBody, except_bind_eq_ok] at h
      obtain ⟨x', hx', h⟩ := h
      obtain ⟨g0, hg, hx'⟩ := filterChild_ok.1 hx'
      cases x' with
      | gone => cases h
      | same => cases h
      | new g1 =>
        simp only [filterOnly, except_map_eq_ok, liftEdit_ok, cloneMapWith, except_bind_eq_ok, initErrors_ok] at h
        obtain ⟨f1, ⟨key', hkey, rfl, he⟩, hf1⟩ := h
        cases hf1
        obtain ⟨h1, h2⟩ := hchild true g0 (.value hg) _ hx' (by simp)
        have hc := (filterChild_ok (env := env)).2 ⟨g1, resolve_of_defined (f := g1) h2, h1⟩
        simp only [filterBody, hc, except_bind_ok, filterOnly]
    | tuple c vs =>
      simp only [filterBody, except_bind_eq_ok] at h
      obtain ⟨r, hr, h⟩ := h
      split at h
      case isFalse => cases h
      simp only [except_map_eq_ok, liftEdit_ok, initErrors_ok] at h
      obtain ⟨f1, ⟨rfl, he⟩, hf1⟩ := h
      cases hf1
      have := slots_once (fun f hf g hg => hchild all g (.tuple hf hg)) hr
      simp [filterBody, this, except_bind_ok]
    | «structure» c defn s ko =>
      simp only [filterBody, filterStructure, except_bind_eq_ok, except_map_eq_ok] at h
      obtain ⟨o1, ⟨r, hr, rfl⟩, h⟩ := h
      split at h
      case h_2 => cases h
      rename_i defn' hd
      split at hd
      case isFalse => cases hd
      cases hd
      simp only [except_map_eq_ok, liftEdit_ok, initErrors_ok] at h
      obtain ⟨f1, ⟨rfl, he⟩, hf1⟩ := h
      cases hf1
      have := members_once (fun e he g hg => hchild true g (.member he hg))
        (fun e he g x hg hx => result_named hx (hb.here e he g hg)) hr
      simp [filterBody, filterStructure, this, Except.map, except_bind_ok]

/-- Filters by parameters that pass the same fields do the same. -/
theorem filter_congr {env : Env} {o : Outer} {p q : Params} (h : ∀ all f, Passes o p all f ↔ Passes o q all f) (n : Nat)
    (all : Bool) (f : Field) : filter env o p n all f = filter env o q n all f := by
  induction n generalizing all f with
  | zero => rfl
  | succ n ih =>
    cases f with
    | undef s => rfl
    | _ =>
      rw [filter_succ (by simp), filter_succ (by simp)]
      rename_i c _
      have e : (filter env o p n : Bool → Field → _) = filter env o q n := funext fun a => funext fun g => ih a g
      have e2 : ∀ f, filterOwn o f all p = filterOwn o f all q := fun f => by
        have := h all f
        rw [← filterOwn_iff, ← filterOwn_iff] at this
        cases h1 : filterOwn o f all p <;> cases h2 : filterOwn o f all q <;> simp_all
      rw [e, e2]

end FT

/-- C88. Filtering again changes nothing: what a filter returns is returned as it is, the same object, by the same filter. -/
theorem C88_again (env : Env) (o : Outer) (p : Params) (ho : OwnAttrs o p) (n : Nat) (all : Bool) (f : Field) (x : Filtered)
    (hb : Everywhere env (Built env) f) (hs : Everywhere env SingleShape f) (h : filter env o p n all f = .ok x)
    (hx : x ≠ .gone) : filter env o p n all (x.result f) = .ok .same :=
  FT.once env o p ho n all f x hb hs h hx

/-- C88. Filtering in steps is filtering once: where the first step succeeds, `f.filter(all=True, **p).filter(all=True,
**q)` has the outcome of `f.filter(all=True, **p, **q)`, results and exceptions alike, unless some structure loses all its
members. -/
theorem C88_steps (env : Env) (o : Outer) (p q : Params) (ho : OwnAttrs o (p ++ q)) (n : Nat) (f : Field) (x : Filtered)
    (hb : Everywhere env (Built env) f) (hs : Everywhere env SingleShape f)
    (hm : Everywhere env (SomeMemberPasses env o (p ++ q)) f) (h : filter env o p n true f = .ok x) (hx : x ≠ .gone) :
    filter env o (p ++ q) n true f = (filter env o q n true (x.result f)).map x.andThen := by
  cases h2 : filter env o q n true (x.result f) with
  | ok y => exact FT.steps env o p q ho n n f x y hb hs hm h hx h2
  | error e => exact FT.fails env o p q ho n f x e hb hs hm h hx h2

/-- C88. A field that the first filter leaves out is left out by both together. -/
theorem C88_gone (env : Env) (o : Outer) (p q : Params) (n : Nat) (f : Field) (h : filter env o p n true f = .ok .gone) :
    filter env o (p ++ q) n true f = .ok .gone := by
  obtain ⟨k, rfl⟩ := FT.filter_pos h
  exact (C33_filter_gone env o _ k true f (FT.filter_defined h)).2 fun hp => (FT.gone_iff h).1 rfl (FT.passes_append.1 hp).1

/-- C88. The order of the steps does not matter: where both ways succeed, the results are equal. -/
theorem C88_order (env : Env) (o : Outer) (p q : Params) (ho : OwnAttrs o (p ++ q)) (n : Nat) (f : Field)
    (x y x' y' : Filtered) (hb : Everywhere env (Built env) f) (hs : Everywhere env SingleShape f)
    (hm : Everywhere env (SomeMemberPasses env o (p ++ q)) f)
    (h1 : filter env o p n true f = .ok x) (hx : x ≠ .gone) (h2 : filter env o q n true (x.result f) = .ok y)
    (h1' : filter env o q n true f = .ok x') (hx' : x' ≠ .gone) (h2' : filter env o p n true (x'.result f) = .ok y') :
    (y = .gone ↔ y' = .gone) ∧ (y ≠ .gone → y.result (x.result f) = y'.result (x'.result f)) := by
  have hp : ∀ all f, Passes o (q ++ p) all f ↔ Passes o (p ++ q) all f := by
    intro all f
    have : ∀ a : Str × Val, a ∈ q ++ p ↔ a ∈ p ++ q := fun a => by simp only [List.mem_append, or_comm]
    simp only [Passes, this, List.append_eq_nil_iff, and_comm (a := q = [])]
  have ho' : OwnAttrs o (q ++ p) := fun a ha => ho a (by simp only [List.mem_append] at ha ⊢; exact ha.symm)
  have hm' : Everywhere env (SomeMemberPasses env o (q ++ p)) f := by
    intro g hg
    have := hm g hg
    cases g with
    | poly c d vs s ko =>
      intro v hv
      rcases this v hv with h | ⟨e, he, g, hg, h⟩
      · exact .inl h
      · exact .inr ⟨e, he, g, hg, (hp true g).2 h⟩
    | _ => simp_all only [SomeMemberPasses]
  have e1 := C88_steps env o p q ho n f x hb hs hm h1 hx
  have e2 := C88_steps env o q p ho' n f x' hb hs hm' h1' hx'
  rw [FT.filter_congr hp, e1, h2, h2'] at e2
  have e3 : x.andThen y = x'.andThen y' := by injection e2
  have hg : ∀ a b : Filtered, a ≠ .gone → (a.andThen b = .gone ↔ b = .gone) := by
    intro a b ha
    cases a with
    | gone => exact absurd rfl ha
    | _ => cases b <;> simp [Filtered.andThen]
  have hr : ∀ a b : Filtered, a ≠ .gone → b ≠ .gone → (a.andThen b).result f = b.result (a.result f) := by
    intro a b ha hb
    cases a with
    | gone => exact absurd rfl ha
    | _ => cases b <;> simp_all [Filtered.andThen, Filtered.result]
  have hy : y = .gone ↔ y' = .gone := by rw [← hg x y hx, e3, hg x' y' hx']
  refine ⟨hy, fun hyg => ?_⟩
  rw [← hr x y hx hyg, e3, hr x' y' hx' (fun h => hyg (hy.2 h))]

/-! ### Examples and deviations -/

namespace Ex

/-- A required account: a required non-null number, a required number and a remark; then a list of such. -/
def stepA : Field := .leaf { name := some c!"a", required := true, nonnull := true } (.integer none none)
def stepB : Field := .leaf { name := some c!"b", required := true } (.integer none none)
def stepC : Field := .leaf { name := some c!"c", nonnull := true } (.integer none none)
def stepRow (fs : List (Str × Field)) : Field := .structure { name := some c!"row", required := true, nonnull := true } fs true []
def stepTop (fs : List (Str × Field)) : Field := .sequence { required := true, nonnull := true } (stepRow fs) none none false
def pReq : Params := [(c!"required", .bool true)]
def pNon : Params := [(c!"nonnull", .bool true)]

end Ex

theorem Ex.step_schema : OwnAttrs Ex.outer (Ex.pReq ++ Ex.pNon) ∧
    ∀ fs, fs = [(c!"a", Ex.stepA), (c!"b", Ex.stepB), (c!"c", Ex.stepC)] →
      Everywhere Ex.env (Built Ex.env) (Ex.stepTop fs) ∧ Everywhere Ex.env SingleShape (Ex.stepTop fs) ∧
      Everywhere Ex.env (SomeMemberPasses Ex.env Ex.outer (Ex.pReq ++ Ex.pNon)) (Ex.stepTop fs) := by
  refine ⟨fun p _ f => rfl, fun fs hfs => ?_⟩
  have hreach : ∀ g, Reach Ex.env (Ex.stepTop fs) g → g = Ex.stepTop fs ∨ g = Ex.stepRow fs ∨ ∃ c k, g = .leaf c k := by
    have hrow : ∀ g, Reach Ex.env (Ex.stepRow fs) g → g = Ex.stepRow fs ∨ ∃ c k, g = .leaf c k := by
      intro g hg
      cases hg with
      | refl => exact .inl rfl
      | step hc hr =>
        cases hc with
        | member hm hres =>
          subst hfs
          simp only [List.mem_cons, Prod.mk.injEq, List.not_mem_nil, or_false] at hm
          rcases hm with ⟨-, rfl⟩ | ⟨-, rfl⟩ | ⟨-, rfl⟩ <;> cases hres <;> cases hr <;>
            first | exact .inr ⟨_, _, rfl⟩ | (rename_i hc _; cases hc)
    intro g hg
    cases hg with
    | refl => exact .inl rfl
    | step hc hr =>
      cases hc with
      | item hres => cases hres; exact .inr (hrow g hr)
  refine ⟨fun g hg => ?_, fun g hg => ?_, fun g hg => ?_⟩ <;> rcases hreach g hg with rfl | rfl | ⟨c, k, rfl⟩ <;> try trivial
  · subst hfs
    intro e he g hres
    simp only [List.mem_cons, List.not_mem_nil, or_false] at he
    rcases he with rfl | rfl | rfl <;> cases hres <;> exact ⟨_, _, rfl⟩
  · subst hfs
    exact .inr ⟨_, List.mem_cons_self .., Ex.stepA, rfl, filterOwn_iff.1 rfl⟩

/-- By `required` and then by `nonnull`: the members left are those that are both. -/
example :
    filter Ex.env Ex.outer (Ex.pReq ++ Ex.pNon) 4 true (Ex.stepTop [(c!"a", Ex.stepA), (c!"b", Ex.stepB), (c!"c", Ex.stepC)]) =
      .ok (.new (Ex.stepTop [(c!"a", Ex.stepA)])) ∧
    filter Ex.env Ex.outer Ex.pReq 4 true (Ex.stepTop [(c!"a", Ex.stepA), (c!"b", Ex.stepB)]) = .ok .same := by
  obtain ⟨ho, hfs⟩ := Ex.step_schema
  obtain ⟨hb, hs, hm⟩ := hfs _ rfl
  have h1 : filter Ex.env Ex.outer Ex.pReq 4 true (Ex.stepTop [(c!"a", Ex.stepA), (c!"b", Ex.stepB), (c!"c", Ex.stepC)]) =
    .ok (.new (Ex.stepTop [(c!"a", Ex.stepA), (c!"b", Ex.stepB)])) := rfl
  refine ⟨?_, C88_again Ex.env Ex.outer Ex.pReq (fun a ha => ho a (List.mem_append.2 (.inl ha))) 4 true _ _ hb hs h1 (by simp)⟩
  rw [C88_steps Ex.env Ex.outer Ex.pReq Ex.pNon ho 4 _ _ hb hs hm h1 (by simp)]
  rfl

/-- C88. A structure that loses all its members: a structure with a member that is required and one that cannot be null is
returned unfiltered by a filter for both, while in two steps the first member remains. -/
theorem C88_emptied :
    let f := Ex.stepRow [(c!"b", Ex.stepB), (c!"c", Ex.stepC)]
    filter Ex.env Ex.outer (Ex.pReq ++ Ex.pNon) 3 true f = .ok .same ∧
    filter Ex.env Ex.outer Ex.pReq 3 true f = .ok (.new (Ex.stepRow [(c!"b", Ex.stepB)])) ∧
    filter Ex.env Ex.outer Ex.pNon 3 true (Ex.stepRow [(c!"b", Ex.stepB)]) = .ok .same :=
  ⟨rfl, rfl, rfl⟩

/-- C88. A first step that raises: a required list of optional numbers cannot be filtered by `required`, although a filter
for both, and the steps in the other order, leave the list out. -/
theorem C88_first_raises :
    let xs : Field := .sequence { name := some c!"xs", required := true } Ex.optInt none none false
    let f := Ex.stepRow [(c!"a", Ex.stepA), (c!"xs", xs)]
    filter Ex.env Ex.outer Ex.pReq 4 true f = .error .cannotFilter ∧
    filter Ex.env Ex.outer (Ex.pReq ++ Ex.pNon) 4 true f = .ok (.new (Ex.stepRow [(c!"a", Ex.stepA)])) ∧
    filter Ex.env Ex.outer Ex.pNon 4 true f = .ok (.new (Ex.stepRow [(c!"a", Ex.stepA)])) :=
  ⟨rfl, rfl, rfl⟩

/-- C88. A polymorphic structure whose discriminator does not pass: it is stored again by the constructor, so that filtering
again builds an equal field instead of returning the field itself. -/
theorem C88_polymorphic_again :
    let d (i : Val) : Field := .leaf { name := some c!"kind", required := true, constant := i } (.integer none none)
    let f (fs : List (Str × Field)) : Field := .poly { required := true, nonnull := true }
      (.leaf { name := some c!"kind", required := true } (.integer none none)) [(.int 1, fs)] true []
    filter Ex.env Ex.outer Ex.pNon 3 true (f [(c!"a", Ex.stepA), (c!"b", Ex.stepB), (c!"kind", d (.int 1))]) =
      .ok (.new (f [(c!"a", Ex.stepA), (c!"kind", d (.int 1))])) ∧
    filter Ex.env Ex.outer Ex.pNon 3 true (f [(c!"a", Ex.stepA), (c!"kind", d (.int 1))]) =
      .ok (.new (f [(c!"a", Ex.stepA), (c!"kind", d (.int 1))])) :=
  ⟨rfl, rfl⟩

end Scheme
