import Verif.Model.Filter
import Verif.Spec.Filter
import Verif.Spec.Examples
import Verif.Props.Clone
import Verif.Props.Extract

/-! C33, C34: `screen` and `filter`. -/

namespace Scheme

/-- C33. `screen(**params)` is true exactly when every parameter that is not None equals the field's
attribute. -/
theorem C33_screen (o : Outer) (f : Field) (params : Params) :
    screen o f params = true ↔ ∀ p ∈ params, p.2 ≠ .none → pyEq (attrOf o f p.1) p.2 = true := by
  induction params with
  | nil => simp [screen]
  | cons p r ih =>
    obtain ⟨a, v⟩ := p
    have hn : v.isNone = false ↔ v ≠ .none := by cases v <;> simp [Val.isNone]
    rw [List.forall_mem_cons, ← ih]
    rw [screen.eq_2]
    cases h1 : v.isNone with
    | true =>
      have : v = .none := by cases v <;> simp_all [Val.isNone]
      simp [this]
    | false =>
      have hv := hn.1 h1
      cases h2 : pyEq (attrOf o f a) v <;> simp [hv]

theorem candidate_matches {o : Outer} {f : Field} {p : Str × Val} :
    pyEq (candidateOf o f p.1) p.2 = true ↔ ParamMatches o f p := by
  unfold candidateOf ParamMatches
  cases h : attrOf o f p.1 <;> simp

theorem filterLoop_all {o : Outer} {f : Field} {params : Params} {b : Bool} :
    filterLoop o f true b params = true ↔ (b = true ∨ params ≠ []) ∧ ∀ p ∈ params, ParamMatches o f p := by
  induction params generalizing b with
  | nil => simp [filterLoop]
  | cons p r ih =>
    rw [List.forall_mem_cons, ← candidate_matches]
    unfold filterLoop
    cases h : pyEq (candidateOf o f p.1) p.2 with
    | true => simp [ih]
    | false => simp

theorem filterLoop_any {o : Outer} {f : Field} {params : Params} {b : Bool} :
    filterLoop o f false b params = true ↔ b = true ∨ ∃ p ∈ params, ParamMatches o f p := by
  induction params generalizing b with
  | nil => simp [filterLoop]
  | cons p r ih =>
    unfold filterLoop
    cases h : pyEq (candidateOf o f p.1) p.2 with
    | true => simp [candidate_matches.1 h]
    | false =>
      have : ¬ ParamMatches o f p := fun hm => by rw [← candidate_matches, h] at hm; cases hm
      simp [ih, this]

theorem filterOwn_iff {o : Outer} {f : Field} {params : Params} {all : Bool} :
    filterOwn o f all params = true ↔ Passes o params all f := by
  unfold filterOwn Passes
  cases params with
  | nil => simp
  | cons p r =>
    cases all with
    | true => simp [filterLoop_all]
    | false => simp [filterLoop_any]

theorem filterBody_not_gone {env : Env} {n : Nat} {rec : Bool → Field → Except EditErr Filtered} {all : Bool} {f : Field} :
    filterBody env n rec all f ≠ .ok .gone := by
  have ho : ∀ mk x, filterOnly mk x ≠ .ok .gone := by
    intro mk x h
    cases x with
    | gone => simp [filterOnly] at h
    | same => simp [filterOnly] at h
    | new g =>
      simp only [filterOnly, except_map_eq_ok] at h
      obtain ⟨a, -, h⟩ := h
      cases h
  have hm : ∀ (x : Except EditErr Field), x.map Filtered.new ≠ .ok .gone := by
    intro x h
    obtain ⟨a, -, h⟩ := except_map_eq_ok.1 h
    cases h
  intro h
  cases f with
  | leaf c k => simp [filterBody] at h
  | union c fs => simp [filterBody] at h
  | undef s => simp [filterBody] at h
  | sequence c i a b u =>
    simp only [filterBody, except_bind_eq_ok] at h
    obtain ⟨x, -, h⟩ := h
    exact ho _ _ h
  | map c k v r =>
    simp only [filterBody, except_bind_eq_ok] at h
    obtain ⟨x, -, h⟩ := h
    exact ho _ _ h
  | tuple c vs =>
    simp only [filterBody, except_bind_eq_ok] at h
    obtain ⟨x, -, h⟩ := h
    split at h
    · exact hm _ h
    · cases h
  | «structure» c d s ko =>
    simp only [filterBody, except_bind_eq_ok] at h
    obtain ⟨x, -, h⟩ := h
    split at h
    · exact hm _ h
    · cases h
  | poly c di vs s ko =>
    simp only [filterBody, except_bind_eq_ok] at h
    obtain ⟨x, -, h⟩ := h
    split at h
    · exact hm _ h
    · cases h

theorem filter_succ {env : Env} {o : Outer} {params : Params} {n : Nat} {all : Bool} {f : Field} (hf : ∀ s, f ≠ .undef s) :
    filter env o params (n + 1) all f =
      if filterOwn o f all params then filterBody env n (filter env o params n) all f else .ok .gone := by
  cases f with
  | undef s => exact absurd rfl (hf s)
  | _ => rfl

/-- C33. `filter(all, **params)` returns None exactly when the field itself does not pass: with `all` when some
parameter does not match, otherwise when none matches. -/
theorem C33_filter_gone (env : Env) (o : Outer) (params : Params) (n : Nat) (all : Bool) (f : Field)
    (hf : ∀ s, f ≠ .undef s) :
    filter env o params (n + 1) all f = .ok .gone ↔ ¬ Passes o params all f := by
  rw [filter_succ hf, ← filterOwn_iff]
  cases filterOwn o f all params with
  | true => simp [filterBody_not_gone]
  | false => simp

/-- C33. A field without child fields, or a union, is returned as it is when it passes. -/
theorem C33_filter_leaf (env : Env) (o : Outer) (params : Params) (n : Nat) (all : Bool) (f : Field)
    (hf : (∃ c k, f = .leaf c k) ∨ ∃ c fs, f = .union c fs) (hp : Passes o params all f) :
    filter env o params (n + 1) all f = .ok .same := by
  rcases hf with ⟨c, k, rfl⟩ | ⟨c, fs, rfl⟩
  · rw [filter_succ (by simp), filterOwn_iff.2 hp]; rfl
  · rw [filter_succ (by simp), filterOwn_iff.2 hp]; rfl

section
variable {env : Env} {rec : Bool → Field → Except EditErr Filtered}

theorem filterChild_ok {all : Bool} {f : Field} {x : Filtered} :
    filterChild env rec all f = .ok x ↔ ∃ g, resolve env f = some g ∧ rec all g = .ok x := by
  unfold filterChild
  cases resolve env f <;> simp

theorem filterMembers_same {defn : List (Str × Field)} {r : List (Str × Field) × Bool}
    (hr : ∀ e ∈ defn, ∀ g, resolve env e.2 = some g → ∀ x, rec true g = .ok x → x = .same)
    (h : filterMembers env rec defn = .ok r) : r.2 = false := by
  induction defn generalizing r with
  | nil => simp only [filterMembers, Except.ok.injEq] at h; subst h; rfl
  | cons e t ih =>
    obtain ⟨name, f⟩ := e
    simp only [filterMembers, except_bind_eq_ok, except_pure, Except.ok.injEq] at h
    obtain ⟨x, hx, r', hr', rfl⟩ := h
    obtain ⟨g, hg, hx⟩ := filterChild_ok.1 hx
    have := hr _ (List.mem_cons_self ..) g hg x hx
    subst this
    simp [keepMember, Filtered.isNew, ih (fun e he => hr e (List.mem_cons_of_mem _ he)) hr']

theorem filterSlots_same {all : Bool} {fs : List Field} {r : List Field × Bool}
    (hr : ∀ f ∈ fs, ∀ g, resolve env f = some g → ∀ x, rec all g = .ok x → x = .same)
    (h : filterSlots env rec all fs = .ok r) : r.2 = false := by
  induction fs generalizing r with
  | nil => simp only [filterSlots, Except.ok.injEq] at h; subst h; rfl
  | cons f t ih =>
    simp only [filterSlots, except_bind_eq_ok] at h
    obtain ⟨x, hx, h⟩ := h
    obtain ⟨g, hg, hx⟩ := filterChild_ok.1 hx
    have := hr _ (List.mem_cons_self ..) g hg x hx
    subst this
    simp only [except_bind_eq_ok, except_pure, Except.ok.injEq] at h
    obtain ⟨r', hr', rfl⟩ := h
    simp [keepMember, Filtered.isNew, ih (fun e he => hr e (List.mem_cons_of_mem _ he)) hr']

theorem filterVariants_same {vs : List (Val × List (Str × Field))} {r : List (Val × List (Str × Field)) × Bool}
    (hr : ∀ v ∈ vs, ∀ e ∈ v.2, ∀ g, resolve env e.2 = some g → ∀ x, rec true g = .ok x → x = .same)
    (h : filterVariants env rec vs = .ok r) : r.2 = false := by
  induction vs generalizing r with
  | nil => simp only [filterVariants, Except.ok.injEq] at h; subst h; rfl
  | cons v t ih =>
    obtain ⟨i, defn⟩ := v
    simp only [filterVariants, except_bind_eq_ok, except_pure, Except.ok.injEq, filterStructure, except_map_eq_ok] at h
    obtain ⟨x, ⟨m, hm, rfl⟩, r', hr', rfl⟩ := h
    have := filterMembers_same (hr _ (List.mem_cons_self ..)) hm
    simp [this, ih (fun e he => hr e (List.mem_cons_of_mem _ he)) hr']

end

/-- C33. Without parameters `filter` returns the field itself. -/
theorem C33_filter_no_params (env : Env) (o : Outer) (n : Nat) (all : Bool) (f : Field) (x : Filtered)
    (h : filter env o [] n all f = .ok x) : x = .same := by
  induction n generalizing all f x with
  | zero => simp [filter] at h
  | succ n ih =>
    have hf : ∀ s, f ≠ .undef s := by rintro s rfl; simp [filter] at h
    rw [filter_succ hf] at h
    simp only [filterOwn, List.isEmpty_nil, Bool.true_or, if_true] at h
    cases f with
    | leaf c k => simpa [filterBody, eq_comm] using h
    | union c fs => simpa [filterBody, eq_comm] using h
    | undef s => exact absurd rfl (hf s)
    | sequence c i a b u =>
      simp only [filterBody, except_bind_eq_ok] at h
      obtain ⟨y, hy, h⟩ := h
      obtain ⟨g, hg, hy⟩ := filterChild_ok.1 hy
      have := ih _ _ _ hy
      subst this
      simpa [filterOnly, eq_comm] using h
    | map c k v r =>
      simp only [filterBody, except_bind_eq_ok] at h
      obtain ⟨y, hy, h⟩ := h
      obtain ⟨g, hg, hy⟩ := filterChild_ok.1 hy
      have := ih _ _ _ hy
      subst this
      simpa [filterOnly, eq_comm] using h
    | tuple c vs =>
      simp only [filterBody, except_bind_eq_ok] at h
      obtain ⟨y, hy, h⟩ := h
      have := filterSlots_same (fun f _ g _ x hx => ih _ _ _ hx) hy
      simpa [this, eq_comm] using h
    | «structure» c d s ko =>
      simp only [filterBody, except_bind_eq_ok, filterStructure, except_map_eq_ok] at h
      obtain ⟨y, ⟨m, hm, rfl⟩, h⟩ := h
      have := filterMembers_same (fun f _ g _ x hx => ih _ _ _ hx) hm
      simpa [this, eq_comm] using h
    | poly c di vs s ko =>
      simp only [filterBody, except_bind_eq_ok] at h
      obtain ⟨y, hy, h⟩ := h
      have := filterVariants_same (fun v _ f _ g _ x hx => ih _ _ _ hx) hy
      simpa [this, eq_comm] using h

/-! ### C34 -/

theorem liftEdit_ok {α : Type} {x : Except PyErr α} {a : α} : liftEdit x = .ok a ↔ x = .ok a := by
  cases x <;> simp [liftEdit]

/-- A new field is not a placeholder. -/
theorem filter_new_defined {env : Env} {o : Outer} {params : Params} {n : Nat} {all : Bool} {f g : Field}
    (h : filter env o params n all f = .ok (.new g)) : ∀ s, g ≠ .undef s := by
  rintro s rfl
  cases n with
  | zero => simp [filter] at h
  | succ n =>
    have hf : ∀ s, f ≠ .undef s := by rintro s rfl; simp [filter] at h
    rw [filter_succ hf] at h
    split at h
    case isFalse => cases h
    cases f with
    | leaf c k => simp [filterBody] at h
    | union c fs => simp [filterBody] at h
    | undef s => exact hf s rfl
    | sequence c i a b u =>
      simp only [filterBody, except_bind_eq_ok] at h
      obtain ⟨x, -, h⟩ := h
      cases x with
      | gone => simp [filterOnly] at h
      | same => simp [filterOnly] at h
      | new g =>
        simp only [filterOnly, except_map_eq_ok, liftEdit_ok, initErrors_ok] at h
        obtain ⟨a, ⟨rfl, -⟩, h⟩ := h; cases h
    | map c k v r =>
      simp only [filterBody, except_bind_eq_ok] at h
      obtain ⟨x, -, h⟩ := h
      cases x with
      | gone => simp [filterOnly] at h
      | same => simp [filterOnly] at h
      | new g =>
        simp only [filterOnly, except_map_eq_ok, liftEdit_ok, cloneMapWith, except_bind_eq_ok, initErrors_ok] at h
        obtain ⟨a, ⟨k', -, rfl, -⟩, h⟩ := h; cases h
    | tuple c vs =>
      simp only [filterBody, except_bind_eq_ok] at h
      obtain ⟨x, -, h⟩ := h
      split at h
      · simp only [except_map_eq_ok, liftEdit_ok, initErrors_ok] at h
        obtain ⟨a, ⟨rfl, -⟩, h⟩ := h; cases h
      · cases h
    | «structure» c d s ko =>
      simp only [filterBody, except_bind_eq_ok] at h
      obtain ⟨x, -, h⟩ := h
      split at h
      · simp only [except_map_eq_ok, liftEdit_ok, initErrors_ok] at h
        obtain ⟨a, ⟨rfl, -⟩, h⟩ := h; cases h
      · cases h
    | poly c di vs s ko =>
      simp only [filterBody, except_bind_eq_ok] at h
      obtain ⟨x, -, h⟩ := h
      split at h
      · simp only [except_map_eq_ok, liftEdit_ok, clonePolyWith, except_bind_eq_ok, initErrors_ok] at h
        obtain ⟨a, ⟨k', -, rfl, -⟩, h⟩ := h; cases h
      · cases h

section
variable {env : Env} {rec : Bool → Field → Except EditErr Filtered}

/-- Which members remain, and whether something changed. -/
theorem filterMembers_spec {defn : List (Str × Field)} {r : List (Str × Field) × Bool}
    (h : filterMembers env rec defn = .ok r) :
    (r.1.map (·.1)).Sublist (defn.map (·.1)) ∧
    (∀ e ∈ defn, ∃ g x, resolve env e.2 = some g ∧ rec true g = .ok x) ∧
    (∀ name g', (name, g') ∈ r.1 ↔ ∃ f g x, (name, f) ∈ defn ∧ resolve env f = some g ∧ rec true g = .ok x ∧
      x ≠ .gone ∧ g' = x.get f) ∧
    (r.2 = false ↔ ∀ e ∈ defn, ∀ g, resolve env e.2 = some g → rec true g = .ok .same) := by
  induction defn generalizing r with
  | nil => simp only [filterMembers, Except.ok.injEq] at h; subst h; simp
  | cons e t ih =>
    obtain ⟨name, f⟩ := e
    simp only [filterMembers, except_bind_eq_ok, except_pure, Except.ok.injEq] at h
    obtain ⟨x, hx, r', hr', rfl⟩ := h
    obtain ⟨g, hg, hx'⟩ := filterChild_ok.1 hx
    replace hx := hx'; clear hx'
    obtain ⟨h1, h2, h3, h4⟩ := ih hr'
    have hall : ∀ e ∈ (name, f) :: t, ∃ g x, resolve env e.2 = some g ∧ rec true g = .ok x := by
      intro e he
      rcases List.mem_cons.1 he with rfl | he
      · exact ⟨g, x, hg, hx⟩
      · exact h2 e he
    have hfun : ∀ {f0 g0 x0}, resolve env f0 = some g0 → rec true g0 = .ok x0 → f0 = f → g0 = g ∧ x0 = x := by
      rintro f0 g0 x0 a b rfl
      rw [hg] at a; cases a
      rw [hx] at b; cases b
      exact ⟨rfl, rfl⟩
    by_cases hgone : x = .gone
    · subst hgone
      refine ⟨h1.cons _, hall, fun nm g' => ?_, ?_⟩
      · show (nm, g') ∈ r'.1 ↔ _
        simp only [h3, List.mem_cons]
        constructor
        · rintro ⟨f0, g0, x0, a, b⟩; exact ⟨f0, g0, x0, .inr a, b⟩
        · rintro ⟨f0, g0, x0, a | a, b, c, d⟩
          · cases a; obtain ⟨rfl, rfl⟩ := hfun b c rfl; exact absurd rfl d.1
          · exact ⟨f0, g0, x0, a, b, c, d⟩
      · constructor
        · intro h; cases h
        · intro h
          have := h _ (List.mem_cons_self ..) g hg
          rw [hx] at this; cases this
    · have hr2 : keepMember name f x r' = ((name, x.get f) :: r'.1, x.isNew || r'.2) := by
        cases x with
        | gone => exact absurd rfl hgone
        | same => simp [keepMember, Filtered.get, Filtered.isNew]
        | new g => simp [keepMember, Filtered.get, Filtered.isNew]
      rw [hr2]
      refine ⟨h1.cons_cons _, hall, fun nm g' => ?_, ?_⟩
      · simp only [List.mem_cons, h3]
        constructor
        · rintro (a | ⟨f0, g0, x0, a, b⟩)
          · cases a; exact ⟨f, g, x, .inl rfl, hg, hx, hgone, rfl⟩
          · exact ⟨f0, g0, x0, .inr a, b⟩
        · rintro ⟨f0, g0, x0, a | a, b, c, d, rfl⟩
          · cases a; obtain ⟨rfl, rfl⟩ := hfun b c rfl; exact .inl rfl
          · exact .inr ⟨f0, g0, x0, a, b, c, d, rfl⟩
      · simp only [Bool.or_eq_false_iff, h4, List.forall_mem_cons]
        refine and_congr_left fun _ => ⟨fun h g0 hg0 => ?_, fun h => ?_⟩
        · obtain ⟨rfl, -⟩ := hfun hg0 (by rw [hg] at hg0; cases hg0; exact hx) rfl
          cases x with
          | gone => exact absurd rfl hgone
          | same => exact hx
          | new g1 => cases h
        · have := h g hg
          rw [hx] at this; cases this; rfl

end

theorem mem_nameMembers {env : Env} {l : List (Str × Field)} {name : Str} {g : Field} :
    (name, g) ∈ nameMembers env l ↔ ∃ f, (name, f) ∈ l ∧ g = nameMember name ((resolve env f).getD f) := by
  induction l with
  | nil => simp [nameMembers]
  | cons e r ih =>
    obtain ⟨nm, f⟩ := e
    simp only [nameMembers, List.mem_cons, ih, Prod.mk.injEq]
    constructor
    · rintro (⟨rfl, rfl⟩ | ⟨f0, h, rfl⟩)
      · exact ⟨f, .inl ⟨rfl, rfl⟩, rfl⟩
      · exact ⟨f0, .inr h, rfl⟩
    · rintro ⟨f0, ⟨rfl, rfl⟩ | h, rfl⟩
      · exact .inl ⟨rfl, rfl⟩
      · exact .inr ⟨f0, h, rfl⟩

theorem nameMembers_keys {env : Env} {l : List (Str × Field)} : (nameMembers env l).map (·.1) = l.map (·.1) := by
  induction l with
  | nil => rfl
  | cons e r ih => simp [nameMembers, ih]

/-- The field that a container ends up with for a child `g`. -/
def Filtered.result (g : Field) : Filtered → Field
  | .new g' => g'
  | _ => g

/-- C34. Filtering a structure that passes itself.  The members are always filtered with `all=True`.  The result is
a structure with exactly the members that pass, in order, each filtered in turn; it is the structure itself when no
member changes, but also when no member passes. -/
theorem C34_structure (env : Env) (o : Outer) (params : Params) (n : Nat) (all : Bool) (c : Common)
    (defn : List (Str × Field)) (s : Bool) (ko : List Str) (x : Filtered)
    (hdef : ∀ e ∈ defn, ∀ g, resolve env e.2 = some g → ∀ sl, g ≠ .undef sl)
    (hp : Passes o params all (.structure c defn s ko))
    (h : filter env o params (n + 2) all (.structure c defn s ko) = .ok x) :
    (x = .same ∧ ((∀ e ∈ defn, ∀ g, resolve env e.2 = some g → filter env o params (n + 1) true g = .ok .same) ∨
      ∀ e ∈ defn, ∀ g, resolve env e.2 = some g → ¬ Passes o params true g)) ∨
    ∃ defn', x = .new (.structure c defn' s ko) ∧ (defn'.map (·.1)).Sublist (defn.map (·.1)) ∧
      ∀ name g', (name, g') ∈ defn' ↔ ∃ f g y, (name, f) ∈ defn ∧ resolve env f = some g ∧ Passes o params true g ∧
        filter env o params (n + 1) true g = .ok y ∧ g' = nameMember name (y.result g) := by
  rw [filter_succ (by simp), filterOwn_iff.2 hp] at h
  simp only [if_true, filterBody, filterStructure, except_bind_eq_ok, except_map_eq_ok] at h
  obtain ⟨y, ⟨m, hm, rfl⟩, h⟩ := h
  obtain ⟨h1, h2, h3, h4⟩ := filterMembers_spec hm
  have hpass : ∀ e ∈ defn, ∀ g y, resolve env e.2 = some g → filter env o params (n + 1) true g = .ok y →
      (y ≠ .gone ↔ Passes o params true g) := by
    intro e he g y hg hy
    have := C33_filter_gone env o params n true g (hdef e he g hg)
    constructor
    · intro hne
      exact Classical.byContradiction fun hn => by
        rw [this.2 hn] at hy; cases hy; exact hne rfl
    · rintro hp rfl
      exact this.1 hy hp
  split at h
  · rename_i defn' hd
    obtain ⟨x', hx', rfl⟩ := except_map_eq_ok.1 h
    have hnew : x' = .structure c (nameMembers env defn') s ko := by
      unfold liftEdit at hx'
      split at hx'
      · rename_i hi
        cases hx'
        exact (initErrors_ok.1 hi).1
      · cases hx'
    subst hnew
    split at hd
    · cases hd
      refine .inr ⟨_, rfl, by rw [nameMembers_keys]; exact h1, fun name g' => ?_⟩
      rw [mem_nameMembers]
      constructor
      · rintro ⟨f0, hf0, rfl⟩
        obtain ⟨f, g, y, hf, hg, hy, hyg, rfl⟩ := (h3 name f0).1 hf0
        refine ⟨f, g, y, hf, hg, (hpass _ hf g y hg hy).1 hyg, hy, ?_⟩
        cases y with
        | gone => exact absurd rfl hyg
        | same => simp [Filtered.get, Filtered.result, hg]
        | new g1 =>
          have hd1 : ∀ sl, g1 ≠ .undef sl := filter_new_defined hy
          simp [Filtered.get, Filtered.result, resolve_of_defined hd1]
      · rintro ⟨f, g, y, hf, hg, hp, hy, rfl⟩
        refine ⟨y.get f, (h3 name _).2 ⟨f, g, y, hf, hg, hy, (hpass _ hf g y hg hy).2 hp, rfl⟩, ?_⟩
        cases y with
        | gone => exact absurd rfl ((hpass _ hf g _ hg hy).2 hp)
        | same => simp [Filtered.get, Filtered.result, hg]
        | new g1 =>
          have hd1 : ∀ sl, g1 ≠ .undef sl := filter_new_defined hy
          simp [Filtered.get, Filtered.result, resolve_of_defined hd1]
    · cases hd
  · rename_i hd
    cases h
    refine .inl ⟨rfl, ?_⟩
    by_cases hc : m.2 = false
    · exact .inl (h4.1 hc)
    · have hc : m.2 = true := by simpa using hc
      simp only [hc, Bool.true_and, Bool.not_eq_true'] at hd
      have hm1 : m.1 = [] := by
        cases hm : m.1 with
        | nil => rfl
        | cons a r => simp [hm] at hd
      refine .inr fun e he g hg hp => ?_
      obtain ⟨g0, y, hg0, hy⟩ := h2 e he
      rw [hg] at hg0; cases hg0
      have := (h3 e.1 (y.get e.2)).2 ⟨e.2, g, y, he, hg, hy, (hpass e he g y hg hy).2 hp, rfl⟩
      rw [hm1] at this
      cases this

/-- Filtering does not change a field's own attributes. -/
theorem filter_new_common {env : Env} {o : Outer} {params : Params} {n : Nat} {all : Bool} {f g : Field}
    (h : filter env o params n all f = .ok (.new g)) : g.common? = f.common? := by
  cases n with
  | zero => simp [filter] at h
  | succ n =>
    have hf : ∀ s, f ≠ .undef s := by rintro s rfl; simp [filter] at h
    rw [filter_succ hf] at h
    split at h
    case isFalse => cases h
    cases f with
    | leaf c k => simp [filterBody] at h
    | union c fs => simp [filterBody] at h
    | undef s => exact absurd rfl (hf s)
    | sequence c i a b u =>
      simp only [filterBody, except_bind_eq_ok] at h
      obtain ⟨x, -, h⟩ := h
      cases x with
      | gone => simp [filterOnly] at h
      | same => simp [filterOnly] at h
      | new g =>
        simp only [filterOnly, except_map_eq_ok, liftEdit_ok, initErrors_ok] at h
        obtain ⟨a, ⟨rfl, -⟩, h⟩ := h; cases h; rfl
    | map c k v r =>
      simp only [filterBody, except_bind_eq_ok] at h
      obtain ⟨x, -, h⟩ := h
      cases x with
      | gone => simp [filterOnly] at h
      | same => simp [filterOnly] at h
      | new g =>
        simp only [filterOnly, except_map_eq_ok, liftEdit_ok, cloneMapWith, except_bind_eq_ok, initErrors_ok] at h
        obtain ⟨a, ⟨k', -, rfl, -⟩, h⟩ := h; cases h; rfl
    | tuple c vs =>
      simp only [filterBody, except_bind_eq_ok] at h
      obtain ⟨x, -, h⟩ := h
      split at h
      · simp only [except_map_eq_ok, liftEdit_ok, initErrors_ok] at h
        obtain ⟨a, ⟨rfl, -⟩, h⟩ := h; cases h; rfl
      · cases h
    | «structure» c d s ko =>
      simp only [filterBody, except_bind_eq_ok] at h
      obtain ⟨x, -, h⟩ := h
      split at h
      · simp only [except_map_eq_ok, liftEdit_ok, initErrors_ok] at h
        obtain ⟨a, ⟨rfl, -⟩, h⟩ := h; cases h; rfl
      · cases h
    | poly c di vs s ko =>
      simp only [filterBody, except_bind_eq_ok] at h
      obtain ⟨x, -, h⟩ := h
      split at h
      · simp only [except_map_eq_ok, liftEdit_ok, clonePolyWith, except_bind_eq_ok, initErrors_ok] at h
        obtain ⟨a, ⟨k', -, rfl, -⟩, h⟩ := h; cases h; rfl
      · cases h

theorem passes_of_common {o : Outer} {params : Params} (ho : OwnAttrs o params) {all : Bool} {f g : Field}
    (h : g.common? = f.common?) (hp : Passes o params all f) : Passes o params all g := by
  have ha : ∀ p ∈ params, attrOf o g p.1 = attrOf o f p.1 := by
    intro p hp
    unfold attrOf
    rw [h, ho p hp f, ho p hp g]
  have hm : ∀ p ∈ params, (ParamMatches o g p ↔ ParamMatches o f p) := by
    intro p hp
    unfold ParamMatches
    rw [ha p hp]
  rcases hp with h | ⟨h1, h2⟩ | ⟨h1, p, h2, h3⟩
  · exact .inl h
  · exact .inr (.inl ⟨h1, fun p hp => (hm p hp).2 (h2 p hp)⟩)
  · exact .inr (.inr ⟨h1, p, h2, (hm p h2).2 h3⟩)

theorem mem_keySet {k : Str} {v : Field} {l : List (Str × Field)} {e : Str × Field} (h : e ∈ keySet k v l) :
    e ∈ l ∨ e = (k, v) := by
  induction l with
  | nil => simp only [keySet, List.mem_singleton] at h; exact .inr h
  | cons a r ih =>
    obtain ⟨k', v'⟩ := a
    simp only [keySet] at h
    split at h
    · rename_i hk
      rcases List.mem_cons.1 h with rfl | h
      · subst hk; exact .inr rfl
      · exact .inl (List.mem_cons_of_mem _ h)
    · rcases List.mem_cons.1 h with rfl | h
      · exact .inl (List.mem_cons_self ..)
      · rcases ih h with h | h
        · exact .inl (List.mem_cons_of_mem _ h)
        · exact .inr h

/-- What `filter` leaves for one child: the child passes, and so does everything below. -/
def Clean (env : Env) (o : Outer) (params : Params) (g : Field) : Prop :=
  Passes o params true g ∧ ∀ h, FilterBelow env g h → Passes o params true h

theorem below_of_children {env : Env} {o : Outer} {params : Params} {f : Field}
    (h : ∀ g, Filterable env f g → Clean env o params g) : ∀ g, FilterBelow env f g → Passes o params true g := by
  intro g hg
  cases hg with
  | child hc => exact (h g hc).1
  | step hc hb => exact (h _ hc).2 _ hb

theorem filterSlots_spec {env : Env} {rec : Bool → Field → Except EditErr Filtered} {all : Bool} {fs : List Field}
    {r : List Field × Bool} (h : filterSlots env rec all fs = .ok r) :
    (∀ g' ∈ r.1, ∃ f g x, f ∈ fs ∧ resolve env f = some g ∧ rec all g = .ok x ∧ x ≠ .gone ∧ g' = x.get f) ∧
    (r.2 = false → ∀ f ∈ fs, ∀ g, resolve env f = some g → rec all g = .ok .same) := by
  induction fs generalizing r with
  | nil => simp only [filterSlots, Except.ok.injEq] at h; subst h; simp
  | cons f t ih =>
    simp only [filterSlots, except_bind_eq_ok] at h
    obtain ⟨x, hx, h⟩ := h
    obtain ⟨g, hg, hx'⟩ := filterChild_ok.1 hx
    replace hx := hx'; clear hx'
    by_cases hgone : x = .gone
    · subst hgone; cases h
    · have h' : ∃ r', filterSlots env rec all t = .ok r' ∧ r = (x.get f :: r'.1, x.isNew || r'.2) := by
        cases x with
        | gone => exact absurd rfl hgone
        | same =>
          simp only [except_bind_eq_ok, except_pure, Except.ok.injEq] at h
          obtain ⟨r', h1, h2⟩ := h; exact ⟨r', h1, h2.symm⟩
        | new g1 =>
          simp only [except_bind_eq_ok, except_pure, Except.ok.injEq] at h
          obtain ⟨r', h1, h2⟩ := h; exact ⟨r', h1, h2.symm⟩
      obtain ⟨r', hr', rfl⟩ := h'
      obtain ⟨h1, h2⟩ := ih hr'
      refine ⟨fun g' hg' => ?_, fun hb f0 hf0 g0 hg0 => ?_⟩
      · rcases List.mem_cons.1 hg' with rfl | hg'
        · exact ⟨f, g, x, List.mem_cons_self .., hg, hx, hgone, rfl⟩
        · obtain ⟨f0, g0, x0, a, b⟩ := h1 g' hg'
          exact ⟨f0, g0, x0, List.mem_cons_of_mem _ a, b⟩
      · simp only [Bool.or_eq_false_iff] at hb
        rcases List.mem_cons.1 hf0 with rfl | hf0
        · rw [hg] at hg0; cases hg0
          cases x with
          | gone => exact absurd rfl hgone
          | same => exact hx
          | new g1 => exact absurd hb.1 (by simp [Filtered.isNew])
        · exact h2 hb.2 f0 hf0 g0 hg0

/-- The variants of the result: filtered, or untouched because nothing changed or nothing was left. -/
theorem filterVariants_spec {env : Env} {rec : Bool → Field → Except EditErr Filtered} {vs : List (Val × List (Str × Field))}
    {r : List (Val × List (Str × Field)) × Bool} (h : filterVariants env rec vs = .ok r) :
    (∀ v' ∈ r.1, ∃ defn m, (v'.1, defn) ∈ vs ∧ filterMembers env rec defn = .ok m ∧
      v'.2 = if m.2 && !m.1.isEmpty then m.1 else defn) ∧
    (r.2 = false → ∀ v ∈ vs, ∃ m, filterMembers env rec v.2 = .ok m ∧ (m.2 && !m.1.isEmpty) = false) := by
  induction vs generalizing r with
  | nil => simp only [filterVariants, Except.ok.injEq] at h; subst h; simp
  | cons v t ih =>
    obtain ⟨i, defn⟩ := v
    simp only [filterVariants, except_bind_eq_ok, except_pure, Except.ok.injEq, filterStructure, except_map_eq_ok] at h
    obtain ⟨x, ⟨m, hm, rfl⟩, r', hr', rfl⟩ := h
    obtain ⟨h1, h2⟩ := ih hr'
    refine ⟨fun v' hv' => ?_, fun hb v hv => ?_⟩
    · rcases List.mem_cons.1 hv' with rfl | hv'
      · refine ⟨defn, m, List.mem_cons_self .., hm, ?_⟩
        by_cases hc : (m.2 && !m.1.isEmpty) = true <;> simp [hc]
      · obtain ⟨d, m', a, b⟩ := h1 v' hv'
        exact ⟨d, m', List.mem_cons_of_mem _ a, b⟩
    · simp only [Bool.or_eq_false_iff] at hb
      rcases List.mem_cons.1 hv with rfl | hv
      · refine ⟨m, hm, ?_⟩
        by_cases hc : (m.2 && !m.1.isEmpty) = true
        · exact absurd hb.1 (by simp [hc])
        · simpa using hc
      · exact h2 hb.2 v hv

theorem mem_nameVariants {env : Env} {disc : Field} {vs : List (Val × List (Str × Field))} {v : Val × List (Str × Field)}
    (h : v ∈ nameVariants env disc vs) :
    ∃ d, (v.1, d) ∈ vs ∧ v.2 = keySet (disc.name.getD []) (discFor env disc v.1) (nameMembers env d) := by
  induction vs with
  | nil => cases h
  | cons a r ih =>
    obtain ⟨i, d⟩ := a
    rcases List.mem_cons.1 h with rfl | h
    · exact ⟨d, List.mem_cons_self .., rfl⟩
    · obtain ⟨d', h1, h2⟩ := ih h
      exact ⟨d', List.mem_cons_of_mem _ h1, h2⟩

/-- C34. After `filter(all=True, **params)` every field that filtering looks at, at any depth of the result, passes,
provided that no structure on the way loses all its members.  The parameters name common attributes or aspects. -/
theorem C34_rest_passes (env : Env) (o : Outer) (params : Params) (ho : OwnAttrs o params) (n : Nat) (f : Field) (x : Filtered)
    (hs : Everywhere env (SomeMemberPasses env o params) f) (hb : Everywhere env (Built env) f)
    (h : filter env o params n true f = .ok x) (hx : x ≠ .gone) :
    Passes o params true (x.result f) ∧ ∀ g, FilterBelow env (x.result f) g → Passes o params true g := by
  induction n generalizing f x with
  | zero => simp [filter] at h
  | succ n ih =>
    have hf : ∀ s, f ≠ .undef s := by rintro s rfl; simp [filter] at h
    have hpf : Passes o params true f := Classical.byContradiction fun hn => by
      rw [(C33_filter_gone env o params n true f hf).2 hn] at h; cases h; exact hx rfl
    refine ⟨?_, ?_⟩
    · cases x with
      | gone => exact absurd rfl hx
      | same => exact hpf
      | new g => exact passes_of_common ho (filter_new_common h) hpf
    rw [filter_succ hf, filterOwn_iff.2 hpf] at h
    simp only [if_true] at h
    apply below_of_children
    -- what is left of a child
    have hch : ∀ g, Child env f g → ∀ y, filter env o params n true g = .ok y → y ≠ .gone →
        Clean env o params (y.result g) := fun g hc y hy hyg => ih g y (hs.child hc) (hb.child hc) hy hyg
    have hres : ∀ e g y, resolve env e = some g → Child env f g → filter env o params n true g = .ok y → y ≠ .gone →
        ∀ g', resolve env (y.get e) = some g' → Clean env o params g' := by
      intro e g y hg hc hy hyg g' hg'
      have := hch g hc y hy hyg
      cases y with
      | gone => exact absurd rfl hyg
      | same => simp only [Filtered.get, hg, Option.some.injEq] at hg'; subst hg'; exact this
      | new g1 =>
        simp only [Filtered.get, resolve_of_defined (filter_new_defined hy), Option.some.injEq] at hg'
        subst hg'; exact this
    -- members
    have hmem : ∀ defn, (∀ e ∈ defn, ∀ g, resolve env e.2 = some g → Child env f g) → (∀ e ∈ defn, Named env e.2) →
        (defn = [] ∨ ∃ e ∈ defn, ∃ g, resolve env e.2 = some g ∧ Passes o params true g) →
        ∀ m, filterMembers env (filter env o params n) defn = .ok m →
        (∀ e ∈ (if m.2 && !m.1.isEmpty then m.1 else defn), ∀ g', resolve env e.2 = some g' → Clean env o params g') ∧
        ∀ e ∈ nameMembers env (if m.2 && !m.1.isEmpty then m.1 else defn), ∀ g', resolve env e.2 = some g' →
          Clean env o params g' := by
      intro defn hcd hnm hsome m hm
      obtain ⟨h1, h2, h3, h4⟩ := filterMembers_spec hm
      have hplain : ∀ e ∈ (if m.2 && !m.1.isEmpty then m.1 else defn), (∃ a s g, resolve env e.2 = some g ∧ g.name = some (a :: s)) ∧
          ∀ g', resolve env e.2 = some g' → Clean env o params g' := by
        intro e he
        split at he
        · obtain ⟨nm, g'⟩ := e
          obtain ⟨f0, g0, y, a, b, c, d, rfl⟩ := (h3 nm g').1 he
          refine ⟨?_, fun g' hg' => hres f0 g0 y b (hcd _ a g0 b) c d g' hg'⟩
          obtain ⟨a', s', hn⟩ := hnm _ a g0 b
          cases y with
          | gone => exact absurd rfl d
          | same => exact ⟨a', s', g0, b, hn⟩
          | new g1 =>
            refine ⟨a', s', g1, resolve_of_defined (filter_new_defined c), ?_⟩
            rw [← hn]; unfold Field.name; rw [filter_new_common c]
        · rename_i hc
          have hsame : ∀ e ∈ defn, ∀ g, resolve env e.2 = some g → filter env o params n true g = .ok .same := by
            apply h4.1
            cases hm2 : m.2 with
            | false => rfl
            | true =>
              exfalso
              have hm1 : m.1 = [] := by
                cases hm1 : m.1 with
                | nil => rfl
                | cons a r => simp [hm2, hm1] at hc
              rcases hsome with rfl | ⟨e, he, g, hg, hp⟩
              · simp only [filterMembers, Except.ok.injEq] at hm; subst hm; cases hm2
              · obtain ⟨g0, y, hg0, hy⟩ := h2 e he
                rw [hg] at hg0; cases hg0
                have hyg : y ≠ .gone := by
                  rintro rfl
                  cases n with
                  | zero => simp [filter] at hy
                  | succ n =>
                    have hgd : ∀ s, g ≠ .undef s := by rintro s rfl; simp [filter] at hy
                    exact (C33_filter_gone env o params n true g hgd).1 hy hp
                have := (h3 e.1 (y.get e.2)).2 ⟨e.2, g, y, he, hg, hy, hyg, rfl⟩
                rw [hm1] at this; cases this
          obtain ⟨g0, y, hg0, hy⟩ := h2 e he
          obtain ⟨a', s', hn⟩ := hnm _ he g0 hg0
          refine ⟨⟨a', s', g0, hg0, hn⟩, fun g' hg' => ?_⟩
          exact hch g' (hcd e he g' hg') .same (hsame e he g' hg') (by simp)
      refine ⟨fun e he => (hplain e he).2, fun e he g' hg' => ?_⟩
      obtain ⟨nm, g1⟩ := e
      obtain ⟨f0, hf0, rfl⟩ := mem_nameMembers.1 he
      obtain ⟨⟨a', s', g0, hg0, hn⟩, hcl⟩ := hplain _ hf0
      simp only [hg0, Option.getD_some] at hg'
      rw [nameMember_named hn] at hg'
      have hgd : ∀ s, g0 ≠ .undef s := by rintro s rfl; simp [Field.name, Field.common?] at hn
      rw [resolve_of_defined hgd] at hg'
      cases hg'
      exact hcl _ hg0
    intro g hfg
    cases f with
    | leaf c k =>
      simp only [filterBody, Except.ok.injEq] at h; subst h
      cases hfg
    | union c fs =>
      simp only [filterBody, Except.ok.injEq] at h; subst h
      cases hfg
    | undef s => exact absurd rfl (hf s)
    | sequence c i a b u =>
      simp only [filterBody, except_bind_eq_ok] at h
      obtain ⟨y, hy, h⟩ := h
      obtain ⟨gi, hgi, hy'⟩ := filterChild_ok.1 hy
      cases y with
      | gone => simp [filterOnly] at h
      | same =>
        simp only [filterOnly, Except.ok.injEq] at h; subst h
        cases hfg with
        | item hr => exact hch g (.item hr) .same (by rw [hgi] at hr; cases hr; exact hy') (by simp)
      | new g1 =>
        simp only [filterOnly, except_map_eq_ok, liftEdit_ok, initErrors_ok] at h
        obtain ⟨a, ⟨rfl, -⟩, rfl⟩ := h
        cases hfg with
        | item hr => exact hres i gi (.new g1) hgi (.item hgi) hy' (by simp) g hr
    | map c k v r =>
      simp only [filterBody, except_bind_eq_ok] at h
      obtain ⟨y, hy, h⟩ := h
      obtain ⟨gi, hgi, hy'⟩ := filterChild_ok.1 hy
      cases y with
      | gone => simp [filterOnly] at h
      | same =>
        simp only [filterOnly, Except.ok.injEq] at h; subst h
        cases hfg with
        | value hr => exact hch g (.value hr) .same (by rw [hgi] at hr; cases hr; exact hy') (by simp)
      | new g1 =>
        simp only [filterOnly, except_map_eq_ok, liftEdit_ok, cloneMapWith, except_bind_eq_ok, initErrors_ok] at h
        obtain ⟨a, ⟨k', -, rfl, -⟩, rfl⟩ := h
        cases hfg with
        | value hr => exact hres v gi (.new g1) hgi (.value hgi) hy' (by simp) g hr
    | tuple c vs =>
      simp only [filterBody, except_bind_eq_ok] at h
      obtain ⟨y, hy, h⟩ := h
      obtain ⟨h1, h2⟩ := filterSlots_spec hy
      split at h
      · simp only [except_map_eq_ok, liftEdit_ok, initErrors_ok] at h
        obtain ⟨a, ⟨rfl, -⟩, rfl⟩ := h
        cases hfg with
        | element hm hr =>
          obtain ⟨f0, g0, x0, a, b, c', d, rfl⟩ := h1 _ hm
          exact hres f0 g0 x0 b (.tuple a b) c' d g hr
      · rename_i hy2
        cases h
        cases hfg with
        | element hm hr => exact hch g (.tuple hm hr) .same (h2 (by simpa using hy2) _ hm g hr) (by simp)
    | «structure» c d s ko =>
      simp only [filterBody, except_bind_eq_ok, filterStructure, except_map_eq_ok] at h
      obtain ⟨y, ⟨m, hm, rfl⟩, h⟩ := h
      obtain ⟨k1, k2⟩ := hmem d (fun e he g hg => .member he hg) hb.here hs.here m hm
      split at h
      · rename_i defn' hd
        simp only [except_map_eq_ok, liftEdit_ok, initErrors_ok] at h
        obtain ⟨a, ⟨rfl, -⟩, rfl⟩ := h
        split at hd
        · rename_i hc
          cases hd
          simp only [hc, if_true] at k2
          cases hfg with
          | member hm hr => exact k2 _ hm g hr
        · cases hd
      · rename_i hd
        cases h
        split at hd
        · cases hd
        · rename_i hc
          simp only [hc] at k1
          cases hfg with
          | member hm hr => exact k1 _ hm g hr
    | poly c di vs s ko =>
      simp only [filterBody, except_bind_eq_ok] at h
      obtain ⟨y, hy, h⟩ := h
      obtain ⟨h1, h2⟩ := filterVariants_spec hy
      have hv : ∀ i defn, (i, defn) ∈ vs → _ := fun i defn hv =>
        hmem defn (fun e he g hg => .variant hv he hg) (hb.here.2 _ hv).1 (hs.here _ hv)
      split at h
      · simp only [except_map_eq_ok, liftEdit_ok, clonePolyWith, except_bind_eq_ok, initErrors_ok] at h
        obtain ⟨a, ⟨d', hd', rfl, -⟩, rfl⟩ := h
        cases hfg with
        | variant hmv hme hne hr =>
          obtain ⟨d0, hd0, hk⟩ := mem_nameVariants hmv
          rw [hk] at hme
          rcases mem_keySet hme with hme | rfl
          · obtain ⟨defn, m, hmv', hm, hif⟩ := h1 _ hd0
            simp only at hif
            have := (hv _ _ hmv' m hm).2
            rw [← hif] at this
            exact this _ hme g hr
          · exact absurd rfl hne
      · rename_i hy2
        cases h
        cases hfg with
        | variant hmv hme hne hr =>
          rename_i v e
          obtain ⟨m, hm, hif⟩ := h2 (by simpa using hy2) _ hmv
          have := (hv v.1 v.2 hmv m hm).1
          simp only [hif] at this
          exact this _ hme g hr

/-! ### Deviations -/

namespace Ex

def reqInt : Field := .leaf { name := some c!"a", required := true } (.integer none none)
def reqNonnull : Field := .leaf { name := some c!"b", required := true, nonnull := true } (.integer none none)
def optInt : Field := .leaf { name := some c!"o" } (.integer none none)

def mixed : Field := .structure { required := true } [(c!"a", reqInt), (c!"o", optInt)] true []

theorem passes_required {c : Common} {k : Leaf} (h : c.required = true) :
    Passes outer [(c!"required", .bool true)] true (.leaf c k) := by
  refine .inr (.inl ⟨rfl, fun p hp => ?_⟩)
  cases List.mem_singleton.1 hp
  exact .inl (by simp [attrOf, Field.common?, commonAttr, h, pyEq, numOf, numEq])

end Ex

/-- C34. Members are filtered with `all=True` whatever was asked for: the member 'a' passes `filter(all=False)` on its
own but is dropped from the structure. -/
theorem C34_nested_all :
    let params : Params := [(c!"required", .bool true), (c!"nonnull", .bool true)]
    filter Ex.env Ex.outer params 3 false Ex.reqInt = .ok .same ∧
    filter Ex.env Ex.outer params 3 false (.structure { required := true } [(c!"a", Ex.reqInt), (c!"b", Ex.reqNonnull)] true []) =
      .ok (.new (.structure { required := true } [(c!"b", Ex.reqNonnull)] true [])) := by
  refine ⟨?_, ?_⟩ <;>
    simp [filter, filterOwn, filterLoop, candidateOf, attrOf, Ex.reqInt, Ex.reqNonnull, Field.common?, commonAttr, pyEq, numOf, numEq,
      filterBody, filterStructure, filterMembers, filterChild, resolve, keepMember, Except.map, liftEdit, initErrors, nameMembers,
      nameMember, Field.setCommon]

/-- C34. A structure none of whose members pass is returned unfiltered. -/
theorem C34_none_left :
    filter Ex.env Ex.outer [(c!"required", .bool true)] 3 true (.structure { required := true } [(c!"o", Ex.optInt)] true []) =
      .ok .same := by
  simp [filter, filterOwn, filterLoop, candidateOf, attrOf, Ex.optInt, Field.common?, commonAttr, pyEq, numOf, numEq,
    filterBody, filterStructure, filterMembers, filterChild, resolve, keepMember, Except.map]

theorem lift_own_errors {c : Common} {f : Field} {x : Filtered}
    (h : (liftEdit (initErrors false c f)).map Filtered.new = .ok x) : c.errors = [] := by
  cases he : initErrors false c f with
  | error => rw [he] at h; cases h
  | ok g =>
    unfold initErrors at he
    split at he
    · cases he
    · rename_i hn; simpa using hn

/-- C34. Only fields without error messages of their own are rebuilt: filtering one that has them raises as soon as
something below it would go. -/
theorem C34_own_errors (env : Env) (o : Outer) (params : Params) (n : Nat) (all : Bool) (f f' : Field) (c : Common)
    (hc : f.common? = some c) (h : filter env o params n all f = .ok (.new f')) : c.errors = [] := by
  cases n with
  | zero => cases h
  | succ n =>
    have only : ∀ {mk : Field → Except PyErr Field} {x}, filterOnly mk x = .ok (.new f') →
        ∃ g, (liftEdit (mk g)).map Filtered.new = .ok (.new f') := by
      intro mk x h
      cases x with
      | same => cases h
      | new g => exact ⟨g, h⟩
      | gone => cases h
    have h : filterOwn o f all params = true ∧ filterBody env n (filter env o params n) all f = .ok (.new f') := by
      cases f with
      | undef => cases hc
      | _ =>
        simp only [filter] at h
        split at h
        · exact ⟨‹_›, h⟩
        · cases h
    obtain ⟨-, h⟩ := h
    cases f with
    | undef => cases hc
    | leaf => cases h
    | union => cases h
    | sequence c' i a b u =>
      cases hc
      simp only [filterBody, except_bind_eq_ok] at h
      obtain ⟨x, -, h⟩ := h
      obtain ⟨g, h⟩ := only h
      exact lift_own_errors h
    | map c' k v r =>
      cases hc
      simp only [filterBody, except_bind_eq_ok] at h
      obtain ⟨x, -, h⟩ := h
      obtain ⟨g, h⟩ := only h
      cases hk : cloneKey (clone env n) k with
      | error => simp [cloneMapWith, hk, bind, Except.bind, liftEdit, Except.map, Except.mapError] at h
      | ok k' =>
        have : cloneMapWith env n c k g r = initErrors false c (.map c k' g r) := by
          simp [cloneMapWith, hk, bind, Except.bind]
        rw [this] at h
        exact lift_own_errors h
    | tuple c' vs =>
      cases hc
      simp only [filterBody, except_bind_eq_ok] at h
      obtain ⟨x, -, h⟩ := h
      split at h
      · exact lift_own_errors h
      · cases h
    | «structure» c' d s ko =>
      cases hc
      simp only [filterBody, except_bind_eq_ok] at h
      obtain ⟨x, -, h⟩ := h
      split at h
      · exact lift_own_errors h
      · cases h
    | poly c' dd vs s ko =>
      cases hc
      simp only [filterBody, except_bind_eq_ok] at h
      obtain ⟨x, -, h⟩ := h
      split at h
      · cases hk : clone env n dd with
        | error => simp [clonePolyWith, hk, bind, Except.bind, liftEdit, Except.map, Except.mapError] at h
        | ok k' =>
          have : clonePolyWith env n c dd x.1 s ko = initErrors false c (.poly c k' (nameVariants env k' x.1) s ko) := by
            simp [clonePolyWith, hk, bind, Except.bind]
          rw [this] at h
          exact lift_own_errors h
      · cases h

/-- C34. A sequence whose item does not pass cannot be filtered. -/
theorem C34_cannot_filter :
    filter Ex.env Ex.outer [(c!"required", .bool true)] 3 true (.sequence { required := true } Ex.optInt none none false) =
      .error .cannotFilter := by
  simp [filter, filterOwn, filterLoop, candidateOf, attrOf, Ex.optInt, Field.common?, commonAttr, pyEq, numOf, numEq,
    filterBody, filterChild, resolve, filterOnly]

/-- The hypotheses of `C34_rest_passes` and of `C34_structure` for a structure with a member that passes and one that
does not. -/
example : OwnAttrs Ex.outer [(c!"required", .bool true)] ∧
    Everywhere Ex.env (SomeMemberPasses Ex.env Ex.outer [(c!"required", .bool true)]) Ex.mixed ∧
    Everywhere Ex.env (Built Ex.env) Ex.mixed ∧
    filter Ex.env Ex.outer [(c!"required", .bool true)] 3 true Ex.mixed =
      .ok (.new (.structure { required := true } [(c!"a", Ex.reqInt)] true [])) := by
  refine ⟨fun p _ f => rfl, ?_, ?_, ?_⟩
  · refine .mk' (.inr ⟨_, List.mem_cons_self .., _, rfl, Ex.passes_required rfl⟩) fun g hg => ?_
    cases hg with
    | member hm hr =>
      rcases List.mem_cons.1 hm with h | h
      · cases h; cases hr; exact .leaf trivial
      · cases List.mem_singleton.1 h; cases hr; exact .leaf trivial
  · refine .mk' ?_ fun g hg => ?_
    · intro e he g hg
      rcases List.mem_cons.1 he with rfl | he
      · cases hg; exact ⟨_, _, rfl⟩
      · cases List.mem_singleton.1 he; cases hg; exact ⟨_, _, rfl⟩
    · cases hg with
      | member hm hr =>
        rcases List.mem_cons.1 hm with h | h
        · cases h; cases hr; exact .leaf trivial
        · cases List.mem_singleton.1 h; cases hr; exact .leaf trivial
  · simp [filter, filterOwn, filterLoop, candidateOf, attrOf, Ex.reqInt, Ex.optInt, Ex.mixed, Field.common?, commonAttr, pyEq, numOf, numEq,
      filterBody, filterStructure, filterMembers, filterChild, resolve, keepMember, Except.map, liftEdit, initErrors, nameMembers,
      nameMember, Field.setCommon]

end Scheme
