import Verif.Model.Clone
import Verif.Lemmas.Same
import Verif.Props.Recursion

/-! C53: clones. -/

namespace Scheme

/-! ### Specification -/

/-- The member `g` has a name of its own. -/
def Named (env : Env) (f : Field) : Prop := ∀ g, resolve env f = some g → ∃ a s, g.name = some (a :: s)

/-- What the Structure constructor establishes (structure.py:91-102, 561-575): members are named; the variants of a
polymorphic structure hold the discriminator with their identity as its constant. -/
def Built (env : Env) : Field → Prop
  | .structure _ defn _ _ => ∀ e ∈ defn, Named env e.2
  | .poly _ disc variants _ _ => (∃ c k, disc = .leaf c k) ∧ ∀ v ∈ variants, (∀ e ∈ v.2, Named env e.2) ∧
      ∃ m g, v.2.lookup (disc.name.getD []) = some m ∧ resolve env m = some g ∧
        Same env g (disc.setCommon fun c => { c with constant := v.1 })
  | _ => True

/-- No error messages of its own (`errors=` argument), which Email ignores anyway. -/
def NoOwnErrors : Field → Prop
  | .leaf _ (.email ..) => True
  | f => ∀ c, f.common? = some c → c.errors = []

/-- All immediate sub-fields that are placeholders have been defined. -/
def AllDefined (env : Env) : Field → Prop
  | .leaf .. => True
  | .sequence _ i _ _ _ => (resolve env i).isSome
  | .map _ _ v _ => (resolve env v).isSome
  | .tuple _ vs => ∀ v ∈ vs, (resolve env v).isSome
  | .union _ vs => ∀ v ∈ vs, (resolve env v).isSome
  | .structure _ d _ _ => ∀ e ∈ d, (resolve env e.2).isSome
  | .poly _ _ vs _ _ => ∀ v ∈ vs, ∀ e ∈ v.2, (resolve env e.2).isSome
  | .undef _ => False

/-! ### Proofs -/

theorem initErrors_ok {b : Bool} {c : Common} {f g : Field} :
    initErrors b c f = .ok g ↔ g = f ∧ (b = true ∨ c.errors = []) := by
  unfold initErrors
  cases b <;> cases c.errors <;> simp [eq_comm]

theorem cloneStep_defined {env : Env} {rec : Field → Except PyErr Field} {f f' : Field}
    (h : cloneStep env rec f = .ok f') (s : Nat) : f' ≠ .undef s := by
  rintro rfl
  cases f with
  | undef s => simp [cloneStep] at h
  | leaf c k => simp only [cloneStep, initErrors_ok] at h; simp at h
  | sequence c i a b u =>
    simp only [cloneStep, except_bind_eq_ok, initErrors_ok] at h
    obtain ⟨_, _, h, _⟩ := h; cases h
  | map c k v r =>
    simp only [cloneStep, except_bind_eq_ok, initErrors_ok] at h
    obtain ⟨_, _, _, _, h, _⟩ := h; cases h
  | tuple c vs =>
    simp only [cloneStep, except_bind_eq_ok, initErrors_ok] at h
    obtain ⟨_, _, h, _⟩ := h; cases h
  | union c vs =>
    simp only [cloneStep, except_bind_eq_ok, initErrors_ok] at h
    obtain ⟨_, _, h, _⟩ := h; cases h
  | «structure» c d s' k =>
    simp only [cloneStep, except_bind_eq_ok, initErrors_ok] at h
    obtain ⟨_, _, h, _⟩ := h; cases h
  | poly c d vs s' k =>
    simp only [cloneStep, except_bind_eq_ok, initErrors_ok] at h
    obtain ⟨_, _, _, _, h, _⟩ := h; cases h

theorem resolve_of_defined {env : Env} {f : Field} (h : ∀ s, f ≠ .undef s) : resolve env f = some f := by
  cases f with
  | undef s => exact absurd rfl (h s)
  | _ => rfl

/-- What the induction hypothesis of clone theorems says about children. -/
def CloneFaithful (env : Env) (rec : Field → Except PyErr Field) (g : Field) : Prop :=
  ∀ g', rec g = .ok g' → Same env g g' ∧ ∀ s, g' ≠ .undef s

section
variable {env : Env} {rec : Field → Except PyErr Field}

theorem cloneChild_ok {f f' : Field} : cloneChild env rec f = .ok f' ↔ ∃ g, resolve env f = some g ∧ rec g = .ok f' := by
  unfold cloneChild
  cases resolve env f <;> simp

theorem cloneChild_same {f f' : Field} (h : cloneChild env rec f = .ok f')
    (hr : ∀ g, resolve env f = some g → CloneFaithful env rec g) : SameChild env f f' := by
  obtain ⟨g, h1, h2⟩ := cloneChild_ok.1 h
  obtain ⟨h3, h4⟩ := hr g h1 f' h2
  exact ⟨g, f', h1, resolve_of_defined h4, h3⟩

theorem cloneList_same {l l' : List Field} (h : cloneList env rec l = .ok l')
    (hr : ∀ f ∈ l, ∀ g, resolve env f = some g → CloneFaithful env rec g) : All2 (SameChild env) l l' := by
  induction l generalizing l' with
  | nil => simp only [cloneList, Except.ok.injEq] at h; subst h; exact .nil
  | cons f r ih =>
    simp only [cloneList, except_bind_eq_ok, except_pure, Except.ok.injEq] at h
    obtain ⟨f', h1, r', h2, rfl⟩ := h
    exact .cons (cloneChild_same h1 (hr f (List.mem_cons_self ..))) (ih h2 fun f hf => hr f (List.mem_cons_of_mem _ hf))

theorem nameMember_named {f : Field} {name : Str} {a : Char} {s : Str} (h : f.name = some (a :: s)) :
    nameMember name f = f := by
  cases f <;> simp_all [nameMember, Field.setCommon, Field.name, Field.common?]

theorem cloneDefn_same {l l' : List (Str × Field)} (h : cloneDefn env rec l = .ok l')
    (hn : ∀ e ∈ l, Named env e.2)
    (hr : ∀ e ∈ l, ∀ g, resolve env e.2 = some g → CloneFaithful env rec g) : SameMembers env l l' := by
  induction l generalizing l' with
  | nil => simp only [cloneDefn, Except.ok.injEq] at h; subst h; exact .nil
  | cons e r ih =>
    obtain ⟨name, f⟩ := e
    simp only [cloneDefn, except_bind_eq_ok, except_pure, Except.ok.injEq] at h
    obtain ⟨f', h1, r', h2, rfl⟩ := h
    refine .cons ⟨rfl, ?_⟩ (ih h2 (fun f hf => hn f (List.mem_cons_of_mem _ hf)) fun f hf => hr f (List.mem_cons_of_mem _ hf))
    have hs := cloneChild_same h1 (hr _ (List.mem_cons_self ..))
    obtain ⟨g, g', k1, k2, k3⟩ := hs
    obtain ⟨a, s, hna⟩ := hn _ (List.mem_cons_self ..) g k1
    obtain ⟨g0, m1, m2⟩ := cloneChild_ok.1 h1
    rw [k1] at m1; cases m1
    obtain ⟨m3, m4⟩ := hr _ (List.mem_cons_self ..) g k1 f' m2
    rw [resolve_of_defined m4] at k2; cases k2
    simp only
    rw [nameMember_named (k3.name ▸ hna)]
    exact ⟨g, f', k1, resolve_of_defined m4, k3⟩

theorem keySet_same {l l' : List (Str × Field)} (h : SameMembers env l l') {name : Str} {m g d : Field}
    (hl : l.lookup name = some m) (hm : resolve env m = some g) (hd : resolve env d = some d) (hs : Same env g d) :
    SameMembers env l (keySet name d l') := by
  induction h with
  | nil => simp at hl
  | @cons a b l l' h ht ih =>
    obtain ⟨x, f⟩ := a
    obtain ⟨y, f'⟩ := b
    obtain ⟨h1, h2⟩ := h
    cases h1
    rw [List.lookup_cons] at hl
    rw [keySet]
    cases hx : name == x with
    | true =>
      rw [hx] at hl
      simp only [Option.some.injEq] at hl
      subst hl
      simp only [show x = name from (beq_iff_eq.1 hx).symm, if_true]
      exact .cons ⟨rfl, g, d, hm, hd, hs⟩ ht
    | false =>
      rw [hx] at hl
      have : ¬ x = name := fun h => by simp [h] at hx
      simp only [this, if_false]
      exact .cons ⟨rfl, h2⟩ (ih hl)

end

theorem clone_same_all (env : Env) (n : Nat) (f : Field) (hf : Everywhere env (Built env) f) :
    CloneFaithful env (clone env n) f := by
  induction n generalizing f with
  | zero => intro g h; cases h
  | succ n ih =>
    intro f' h
    replace h : cloneStep env (clone env n) f = .ok f' := h
    refine ⟨?_, cloneStep_defined h⟩
    have hc : ∀ g, Child env f g → CloneFaithful env (clone env n) g := fun g hg => ih g (hf.child hg)
    have hb := hf.here
    cases f with
    | undef s => simp [cloneStep] at h
    | leaf c k =>
      simp only [cloneStep, initErrors_ok] at h
      rw [h.1]
      exact same_leaf (c := c) (c' := { c with aspects := cloneAspects env k c.aspects }) ⟨rfl, rfl, rfl, rfl, rfl, rfl, rfl, rfl⟩ k
    | sequence c i a b u =>
      simp only [cloneStep, except_bind_eq_ok, initErrors_ok] at h
      obtain ⟨i', h1, rfl, _⟩ := h
      exact same_sequence (.refl c) (cloneChild_same h1 fun g hg => hc g (.item hg)) a b u
    | map c k v r =>
      simp only [cloneStep, except_bind_eq_ok, initErrors_ok] at h
      obtain ⟨k', h0, v', h1, rfl, _⟩ := h
      refine same_map (.refl c) ?_ (cloneChild_same h1 fun g hg => hc g (.value hg)) r
      cases k with
      | none => simp only [cloneKey, Except.ok.injEq] at h0; subst h0; exact .none
      | some k =>
        simp only [cloneKey] at h0
        cases hk : clone env n k with
        | error e => rw [hk] at h0; cases h0
        | ok k1 =>
          rw [hk] at h0
          simp only [Except.map, Except.ok.injEq] at h0
          subst h0
          exact .some (hc k .key k1 hk).1
    | tuple c vs =>
      simp only [cloneStep, except_bind_eq_ok, initErrors_ok] at h
      obtain ⟨vs', h1, rfl, _⟩ := h
      exact same_tuple (.refl c) (cloneList_same h1 fun f hf g hg => hc g (.tuple hf hg))
    | union c vs =>
      simp only [cloneStep, except_bind_eq_ok, initErrors_ok] at h
      obtain ⟨vs', h1, rfl, _⟩ := h
      exact same_union (.refl c) (cloneList_same h1 fun f hf g hg => hc g (.union hf hg))
    | «structure» c d s ko =>
      simp only [cloneStep, except_bind_eq_ok, initErrors_ok] at h
      obtain ⟨d', h1, rfl, _⟩ := h
      exact same_structure (.refl c) (cloneDefn_same h1 hb fun e he g hg => hc g (.member (n := e.1) he hg)) s ko
    | poly c disc vs s ko =>
      simp only [cloneStep, except_bind_eq_ok, initErrors_ok] at h
      obtain ⟨disc', h0, vs', h1, rfl, _⟩ := h
      obtain ⟨⟨cd, kd, rfl⟩, hb⟩ := hb
      obtain ⟨hd, _⟩ := hc _ .disc disc' h0
      refine same_poly (.refl c) hd ?_ s ko
      have hdisc : ∃ cd', disc' = .leaf cd' kd ∧ SameUse cd cd' := by
        cases n with
        | zero => cases h0
        | succ n =>
          have h0 : cloneStep env (clone env n) (.leaf cd kd) = .ok disc' := h0
          simp only [cloneStep, initErrors_ok] at h0
          exact ⟨_, h0.1, ⟨rfl, rfl, rfl, rfl, rfl, rfl, rfl, rfl⟩⟩
      obtain ⟨cd', rfl, hu⟩ := hdisc
      have hname := hd.name
      -- go through the variants
      have hvar : ∀ v ∈ vs, ∀ e ∈ v.2, ∀ g, resolve env e.2 = some g → CloneFaithful env (clone env n) g :=
        fun v hv e he g hg => hc g (.variant (i := v.1) (n := e.1) hv he hg)
      clear hc ih hf hd h0
      induction vs generalizing vs' with
      | nil => simp only [cloneVariants, Except.ok.injEq] at h1; subst h1; exact .nil
      | cons v r ih =>
        obtain ⟨i, defn⟩ := v
        simp only [cloneVariants, except_bind_eq_ok, except_pure, Except.ok.injEq] at h1
        obtain ⟨d', k1, r', k2, rfl⟩ := h1
        obtain ⟨hn, m, g, hl, hm, hs⟩ := hb _ (List.mem_cons_self ..)
        refine .cons ⟨rfl, ?_⟩ (ih r' (fun v hv => hb v (List.mem_cons_of_mem _ hv))
          k2 fun v hv => hvar v (List.mem_cons_of_mem _ hv))
        have hm' := cloneDefn_same k1 hn (hvar _ (List.mem_cons_self ..))
        rw [← hname]
        refine keySet_same hm' hl hm rfl (hs.trans ?_)
        exact same_leaf (c := { cd with constant := i }) (c' := { cd' with constant := i, aspects := cloneAspects env kd cd'.aspects })
          ⟨hu.name, hu.default, rfl, hu.nonnull, hu.ignoreNull, hu.required, hu.pre, hu.errors⟩ kd

/-- C53. A clone behaves like the original: for every value, phase, mode and location, and at every call depth,
`process` has the same outcome. -/
theorem C53_behaves (env : Env) (n : Nat) (f f' : Field) (hf : Everywhere env (Built env) f) (h : clone env n f = .ok f')
    (m : Nat) (v : Val) (ph : Phase) (ser : Bool) (anc : List Str) :
    process env m f' v ph ser anc = process env m f v ph ser anc :=
  ((clone_same_all env n f hf f' h).1.process m v ph ser anc).symm

/-- C53. The attributes a parent uses are those of the original. -/
theorem C53_attributes (env : Env) (n : Nat) (f f' : Field) (hf : Everywhere env (Built env) f) (h : clone env n f = .ok f') :
    f'.name = f.name ∧ ∃ c c', f.common? = some c ∧ f'.common? = some c' ∧ c'.default = c.default ∧
      c'.required = c.required ∧ c'.ignoreNull = c.ignoreNull ∧ c'.constant = c.constant ∧ c'.nonnull = c.nonnull := by
  obtain ⟨hs, hd⟩ := clone_same_all env n f hf f' h
  refine ⟨hs.name.symm, ?_⟩
  rcases hs.common with ⟨h1, h2⟩ | ⟨c, c', h1, h2, h3⟩
  · cases f' with
    | undef s => exact absurd rfl (hd s)
    | _ => simp [Field.common?] at h2
  · exact ⟨c, c', h1, h2, h3.default.symm, h3.required.symm, h3.ignoreNull.symm, h3.constant.symm, h3.nonnull.symm⟩

/-! ### When cloning succeeds -/

section
variable {env : Env} {rec : Field → Except PyErr Field}

theorem cloneChild_succ {f : Field} : (∃ f', cloneChild env rec f = .ok f') ↔
    (resolve env f).isSome = true ∧ ∀ g, resolve env f = some g → ∃ g', rec g = .ok g' := by
  unfold cloneChild
  cases resolve env f <;> simp

theorem cloneList_succ {l : List Field} : (∃ l', cloneList env rec l = .ok l') ↔
    ∀ f ∈ l, (resolve env f).isSome = true ∧ ∀ g, resolve env f = some g → ∃ g', rec g = .ok g' := by
  induction l with
  | nil => simp [cloneList]
  | cons f r ih =>
    rw [List.forall_mem_cons, ← ih, ← cloneChild_succ]
    simp only [cloneList, except_bind_eq_ok, except_pure, Except.ok.injEq]
    constructor
    · rintro ⟨_, f', h1, r', h2, _⟩; exact ⟨⟨f', h1⟩, r', h2⟩
    · rintro ⟨⟨f', h1⟩, r', h2⟩; exact ⟨_, f', h1, r', h2, rfl⟩

theorem cloneDefn_succ {l : List (Str × Field)} : (∃ l', cloneDefn env rec l = .ok l') ↔
    ∀ e ∈ l, (resolve env e.2).isSome = true ∧ ∀ g, resolve env e.2 = some g → ∃ g', rec g = .ok g' := by
  induction l with
  | nil => simp [cloneDefn]
  | cons e r ih =>
    obtain ⟨name, f⟩ := e
    rw [List.forall_mem_cons, ← ih, ← cloneChild_succ]
    simp only [cloneDefn, except_bind_eq_ok, except_pure, Except.ok.injEq]
    constructor
    · rintro ⟨_, f', h1, r', h2, _⟩; exact ⟨⟨f', h1⟩, r', h2⟩
    · rintro ⟨⟨f', h1⟩, r', h2⟩; exact ⟨_, f', h1, r', h2, rfl⟩

theorem cloneVariants_succ {d : Field} {l : List (Val × List (Str × Field))} : (∃ l', cloneVariants env rec d l = .ok l') ↔
    ∀ v ∈ l, ∀ e ∈ v.2, (resolve env e.2).isSome = true ∧ ∀ g, resolve env e.2 = some g → ∃ g', rec g = .ok g' := by
  induction l with
  | nil => simp [cloneVariants]
  | cons v r ih =>
    obtain ⟨i, defn⟩ := v
    rw [List.forall_mem_cons, ← ih, ← cloneDefn_succ]
    simp only [cloneVariants, except_bind_eq_ok, except_pure, Except.ok.injEq]
    constructor
    · rintro ⟨_, f', h1, r', h2, _⟩; exact ⟨⟨f', h1⟩, r', h2⟩
    · rintro ⟨⟨f', h1⟩, r', h2⟩; exact ⟨_, f', h1, r', h2, rfl⟩

end

theorem cloneStep_succ {env : Env} {rec : Field → Except PyErr Field} {f : Field} :
    (∃ f', cloneStep env rec f = .ok f') ↔ NoOwnErrors f ∧ AllDefined env f ∧ ∀ g, Child env f g → ∃ g', rec g = .ok g' := by
  cases f with
  | undef s => simp [cloneStep, AllDefined]
  | leaf c k =>
    simp only [cloneStep, initErrors_ok, AllDefined, true_and]
    have : (∀ g, Child env (.leaf c k) g → ∃ g', rec g = .ok g') := fun g hg => by cases hg
    cases k <;> simp_all [NoOwnErrors, Field.common?, Leaf.isEmail]
  | sequence c i a b u =>
    simp only [cloneStep, except_bind_eq_ok, initErrors_ok, AllDefined, NoOwnErrors, Field.common?, Option.some.injEq,
      forall_eq']
    constructor
    · rintro ⟨_, i', h1, rfl, h⟩
      obtain ⟨k1, k2⟩ := cloneChild_succ.1 ⟨i', h1⟩
      refine ⟨by simpa using h, k1, ?_⟩
      intro g hg
      cases hg with
      | item hg => exact k2 g hg
    · rintro ⟨h1, h2, h3⟩
      obtain ⟨i', hi⟩ := cloneChild_succ.2 ⟨h2, fun g hg => h3 g (.item hg)⟩
      exact ⟨_, i', hi, rfl, .inr h1⟩
  | map c k v r =>
    simp only [cloneStep, except_bind_eq_ok, initErrors_ok, AllDefined, NoOwnErrors, Field.common?, Option.some.injEq,
      forall_eq']
    constructor
    · rintro ⟨_, k', h0, v', h1, rfl, h⟩
      obtain ⟨k1, k2⟩ := cloneChild_succ.1 ⟨v', h1⟩
      refine ⟨by simpa using h, k1, ?_⟩
      intro g hg
      cases hg with
      | value hg => exact k2 g hg
      | key =>
        simp only [cloneKey] at h0
        cases hk : rec g with
        | error e => rw [hk] at h0; cases h0
        | ok k1 => exact ⟨k1, rfl⟩
    · rintro ⟨h1, h2, h3⟩
      obtain ⟨v', hv⟩ := cloneChild_succ.2 ⟨h2, fun g hg => h3 g (.value hg)⟩
      cases k with
      | none => exact ⟨_, none, rfl, v', hv, rfl, .inr h1⟩
      | some k =>
        obtain ⟨k', hk⟩ := h3 k .key
        exact ⟨_, some k', by rw [cloneKey, hk]; rfl, v', hv, rfl, .inr h1⟩
  | tuple c vs =>
    simp only [cloneStep, except_bind_eq_ok, initErrors_ok, AllDefined, NoOwnErrors, Field.common?, Option.some.injEq,
      forall_eq']
    constructor
    · rintro ⟨_, i', h1, rfl, h⟩
      have k := cloneList_succ.1 ⟨i', h1⟩
      refine ⟨by simpa using h, fun f hf => (k f hf).1, ?_⟩
      intro g hg
      cases hg with
      | tuple hf hg => exact (k _ hf).2 g hg
    · rintro ⟨h1, h2, h3⟩
      obtain ⟨i', hi⟩ := cloneList_succ.2 fun f hf => ⟨h2 f hf, fun g hg => h3 g (.tuple hf hg)⟩
      exact ⟨_, i', hi, rfl, .inr h1⟩
  | union c vs =>
    simp only [cloneStep, except_bind_eq_ok, initErrors_ok, AllDefined, NoOwnErrors, Field.common?, Option.some.injEq,
      forall_eq']
    constructor
    · rintro ⟨_, i', h1, rfl, h⟩
      have k := cloneList_succ.1 ⟨i', h1⟩
      refine ⟨by simpa using h, fun f hf => (k f hf).1, ?_⟩
      intro g hg
      cases hg with
      | union hf hg => exact (k _ hf).2 g hg
    · rintro ⟨h1, h2, h3⟩
      obtain ⟨i', hi⟩ := cloneList_succ.2 fun f hf => ⟨h2 f hf, fun g hg => h3 g (.union hf hg)⟩
      exact ⟨_, i', hi, rfl, .inr h1⟩
  | «structure» c d s ko =>
    simp only [cloneStep, except_bind_eq_ok, initErrors_ok, AllDefined, NoOwnErrors, Field.common?, Option.some.injEq,
      forall_eq']
    constructor
    · rintro ⟨_, i', h1, rfl, h⟩
      have k := cloneDefn_succ.1 ⟨i', h1⟩
      refine ⟨by simpa using h, fun f hf => (k f hf).1, ?_⟩
      intro g hg
      cases hg with
      | member hf hg => exact (k _ hf).2 g hg
    · rintro ⟨h1, h2, h3⟩
      obtain ⟨i', hi⟩ := cloneDefn_succ.2 fun e he => ⟨h2 e he, fun g hg => h3 g (.member (n := e.1) he hg)⟩
      exact ⟨_, i', hi, rfl, .inr h1⟩
  | poly c disc vs s ko =>
    simp only [cloneStep, except_bind_eq_ok, initErrors_ok, AllDefined, NoOwnErrors, Field.common?, Option.some.injEq,
      forall_eq']
    constructor
    · rintro ⟨_, d', h0, i', h1, rfl, h⟩
      have k := cloneVariants_succ.1 ⟨i', h1⟩
      refine ⟨by simpa using h, fun v hv f hf => (k v hv f hf).1, ?_⟩
      intro g hg
      cases hg with
      | disc => exact ⟨d', h0⟩
      | variant hv hf hg => exact (k _ hv _ hf).2 g hg
    · rintro ⟨h1, h2, h3⟩
      obtain ⟨d', hd⟩ := h3 disc .disc
      obtain ⟨i', hi⟩ := cloneVariants_succ.2 fun v hv e he =>
        ⟨h2 v hv e he, fun g hg => h3 g (.variant (i := v.1) (n := e.1) hv he hg)⟩
      exact ⟨_, d', hd, i', hi, rfl, .inr h1⟩

/-- C53. Cloning succeeds with call depth `n` exactly when the schema is nested at most `n` deep, no field in it has
error messages of its own, and no placeholder in it is undefined. -/
theorem C53_succeeds (env : Env) (n : Nat) (f : Field) :
    (∃ f', clone env n f = .ok f') ↔ Nesting env n f ∧ Everywhere env (fun g => NoOwnErrors g ∧ AllDefined env g) f := by
  induction n generalizing f with
  | zero => simp [clone, Nesting]
  | succ n ih =>
    show (∃ f', cloneStep env (clone env n) f = .ok f') ↔ _
    rw [cloneStep_succ]
    constructor
    · rintro ⟨h1, h2, h3⟩
      refine ⟨fun g hg => ((ih g).1 (h3 g hg)).1, .mk' ⟨h1, h2⟩ fun g hg => ((ih g).1 (h3 g hg)).2⟩
    · rintro ⟨h1, h2⟩
      exact ⟨h2.here.1, h2.here.2, fun g hg => (ih g).2 ⟨h1 g hg, h2.child hg⟩⟩

theorem Reach.trans' {env : Env} {f g h : Field} (a : Reach env f g) (b : Reach env g h) : Reach env f h := by
  induction a with
  | refl => exact b
  | step hc _ ih => exact .step hc (ih b)

theorem not_nesting_cyclic {env : Env} {f g : Field} (hc : Child env f g) (hr : Reach env g f) (n : Nat) : ¬ Nesting env n f := by
  induction n generalizing f g with
  | zero => exact id
  | succ n ih =>
    intro h
    have hg := h g hc
    cases hr with
    | refl => exact ih hc .refl hg
    | step hc' hr' => exact ih hc' (hr'.trans' (.step hc .refl)) hg

/-- C53. A field that can reach itself cannot be cloned, whatever the call depth. -/
theorem C53_cyclic (env : Env) (n : Nat) (f g : Field) (hc : Child env f g) (hr : Reach env g f) (f' : Field) :
    clone env n f ≠ .ok f' := fun h => not_nesting_cyclic hc hr n ((C53_succeeds env n f).1 ⟨f', h⟩).1

/-- C53. A field with an error message of its own cannot be cloned: AttributeError. -/
theorem C53_own_errors (env : Env) (n : Nat) (c : Common) (k : Leaf) (hk : ∀ a b m e, k ≠ .email a b m e)
    (hc : c.errors ≠ []) : clone env (n + 1) (.leaf c k) = .error .attributeError := by
  show cloneStep env (clone env n) (.leaf c k) = _
  have : k.isEmail = false := by
    cases k with
    | email a b m e => exact absurd rfl (hk a b m e)
    | _ => rfl
  simp only [cloneStep, initErrors, this]
  cases he : c.errors with
  | nil => exact absurd he hc
  | cons a l => rfl

/-- C53. Without such messages the only failure is RecursionError. -/
theorem C53_only_recursion (env : Env) (n : Nat) (f : Field) (hf : Everywhere env NoOwnErrors f) (hu : ∀ s, f ≠ .undef s)
    (hk : Everywhere env (fun g => ∀ h, Child env g h → ∀ s, h ≠ .undef s) f) (e : PyErr) (h : clone env n f = .error e) :
    e = .recursionError := by
  induction n generalizing f e with
  | zero => cases h; rfl
  | succ n ih =>
    have hrec : ∀ g, Child env f g → ∀ e, clone env n g = .error e → e = .recursionError := fun g hg e he =>
      ih g (hf.child hg) (hk.here g hg) (hk.child hg) e he
    have hno := hf.here
    have h : cloneStep env (clone env n) f = .error e := h
    have kid : ∀ x e, (∀ g, resolve env x = some g → Child env f g) → cloneChild env (clone env n) x = .error e →
        e = .recursionError := by
      intro x e hx he
      unfold cloneChild at he
      cases hr : resolve env x with
      | none => rw [hr] at he; cases he; rfl
      | some g => rw [hr] at he; exact hrec g (hx g hr) e he
    have lst : ∀ (l : List Field) e, (∀ x ∈ l, ∀ g, resolve env x = some g → Child env f g) →
        cloneList env (clone env n) l = .error e → e = .recursionError := by
      intro l
      induction l with
      | nil => intro e _ he; cases he
      | cons x r ihl =>
        intro e hx he
        simp only [cloneList, except_bind_eq_error, except_pure] at he
        rcases he with he | ⟨x', _, he⟩
        · exact kid x e (hx x (List.mem_cons_self ..)) he
        · rcases he with he | ⟨_, _, he⟩
          · exact ihl e (fun y hy => hx y (List.mem_cons_of_mem _ hy)) he
          · cases he
    have dfn : ∀ (l : List (Str × Field)) e, (∀ x ∈ l, ∀ g, resolve env x.2 = some g → Child env f g) →
        cloneDefn env (clone env n) l = .error e → e = .recursionError := by
      intro l
      induction l with
      | nil => intro e _ he; cases he
      | cons x r ihl =>
        intro e hx he
        simp only [cloneDefn, except_bind_eq_error, except_pure] at he
        rcases he with he | ⟨x', _, he⟩
        · exact kid x.2 e (hx x (List.mem_cons_self ..)) he
        · rcases he with he | ⟨_, _, he⟩
          · exact ihl e (fun y hy => hx y (List.mem_cons_of_mem _ hy)) he
          · cases he
    have init : ∀ b c g e, (c.errors = [] ∨ b = true) → initErrors b c g = .error e → e = .recursionError := by
      intro b c g e hc he
      rcases hc with hc | hc
      · simp [initErrors, hc] at he
      · simp [initErrors, hc] at he
    cases f with
    | undef s => exact absurd rfl (hu s)
    | leaf c k =>
      refine init _ c _ e ?_ h
      cases k with
      | email => exact .inr rfl
      | _ => exact .inl (hno c rfl)
    | sequence c i a b u =>
      simp only [cloneStep, except_bind_eq_error] at h
      rcases h with h | ⟨_, _, h⟩
      · exact kid i e (fun g hg => .item hg) h
      · exact init _ c _ e (.inl (hno c rfl)) h
    | map c k v r =>
      simp only [cloneStep, except_bind_eq_error] at h
      rcases h with h | ⟨_, _, h | ⟨_, _, h⟩⟩
      · cases k with
        | none => cases h
        | some k =>
          simp only [cloneKey] at h
          cases hkk : clone env n k with
          | error e' => rw [hkk] at h; cases h; exact hrec k .key _ hkk
          | ok k1 => rw [hkk] at h; cases h
      · exact kid v e (fun g hg => .value hg) h
      · exact init _ c _ e (.inl (hno c rfl)) h
    | tuple c vs =>
      simp only [cloneStep, except_bind_eq_error] at h
      rcases h with h | ⟨_, _, h⟩
      · exact lst vs e (fun x hx g hg => .tuple hx hg) h
      · exact init _ c _ e (.inl (hno c rfl)) h
    | union c vs =>
      simp only [cloneStep, except_bind_eq_error] at h
      rcases h with h | ⟨_, _, h⟩
      · exact lst vs e (fun x hx g hg => .union hx hg) h
      · exact init _ c _ e (.inl (hno c rfl)) h
    | «structure» c d s ko =>
      simp only [cloneStep, except_bind_eq_error] at h
      rcases h with h | ⟨_, _, h⟩
      · exact dfn d e (fun x hx g hg => .member (n := x.1) hx hg) h
      · exact init _ c _ e (.inl (hno c rfl)) h
    | poly c disc vs s ko =>
      simp only [cloneStep, except_bind_eq_error] at h
      rcases h with h | ⟨disc', _, h | ⟨_, _, h⟩⟩
      · exact hrec disc .disc e h
      · have vr : ∀ (l : List (Val × List (Str × Field))) e, (∀ v ∈ l, v ∈ vs) →
            cloneVariants env (clone env n) disc' l = .error e → e = .recursionError := by
          intro l
          induction l with
          | nil => intro e _ he; cases he
          | cons x r ihl =>
            intro e hx he
            simp only [cloneVariants, except_bind_eq_error, except_pure] at he
            rcases he with he | ⟨_, _, he⟩
            · exact dfn x.2 e (fun y hy g hg => .variant (i := x.1) (n := y.1) (hx x (List.mem_cons_self ..)) hy hg) he
            · rcases he with he | ⟨_, _, he⟩
              · exact ihl e (fun y hy => hx y (List.mem_cons_of_mem _ hy)) he
              · cases he
        exact vr vs e (fun _ h => h) h
      · exact init _ c _ e (.inl (hno c rfl)) h

/-- C53. A clone is not described like the original: cloning an Enumeration adds the aspect `representation`. -/
theorem C53_enumeration_aspect (env : Env) (n : Nat) (c : Common) (hc : c.errors = []) (vals ign : List Val) :
    clone env (n + 1) (.leaf c (.enumeration vals ign)) =
      .ok (.leaf { c with aspects := keySet c!"representation" (.str (enumRepr env vals)) c.aspects } (.enumeration vals ign)) := by
  show cloneStep env (clone env n) _ = _
  simp [cloneStep, initErrors, hc, cloneAspects, Leaf.isEmail]

namespace Ex

/-- A structure with a nested sequence satisfies the hypotheses and is cloned. -/
def clonePerson : Field := .structure {} [(c!"name", .leaf { name := some c!"name" } (.text none none none true)),
  (c!"tags", .sequence { name := some c!"tags" } text none none true)] true []

example : Everywhere env (Built env) clonePerson := by
  refine .mk' ?_ ?_
  · intro e he g hg
    rcases List.mem_cons.1 he with rfl | he
    · cases hg; exact ⟨_, _, rfl⟩
    · rcases List.mem_cons.1 he with rfl | he
      · cases hg; exact ⟨_, _, rfl⟩
      · cases he
  · intro g hg
    cases hg with
    | member hm hg =>
      rcases List.mem_cons.1 hm with h | hm
      · cases h; cases hg; exact .leaf trivial
      · rcases List.mem_cons.1 hm with h | hm
        · cases h; cases hg
          refine .mk' trivial fun g hg => ?_
          cases hg with
          | item hg => cases hg; exact .leaf trivial
        · cases hm

example : clone env 3 clonePerson = .ok clonePerson := rfl

/-- A tree whose nodes hold a list of trees reaches itself. -/
def cloneTreeEnv : Env := { env with defs := fun _ => some (.structure {} [(c!"kids", .sequence { name := some c!"kids" } (.undef 0) none none false)] true []) }

example : ∃ f g, cloneTreeEnv.defs 0 = some f ∧ Child cloneTreeEnv f g ∧ Reach cloneTreeEnv g f :=
  ⟨_, _, rfl, .member (List.mem_cons_self ..) rfl, .step (.item rfl) .refl⟩

end Ex

end Scheme
