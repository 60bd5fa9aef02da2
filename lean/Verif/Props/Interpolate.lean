import Verif.Props.Integer
import Verif.Spec.Interpolate
import Verif.Props.Instantiate
import Verif.Lemmas.Str

/-! C38, C52: interpolation. -/

namespace Scheme

/-! ### Variable references -/

theorem variableExpr_iff (u : Chars) (s e : Str) :
    variableExpr u s = some e ↔ ∃ a b, s = a ++ '$' :: '{' :: (e ++ '}' :: b) ∧ (∀ c ∈ a, isSpace u c = true) ∧
      (∀ c ∈ b, isSpace u c = true) ∧ e ≠ [] ∧ '}' ∉ e := by
  constructor
  · intro h
    unfold variableExpr at h
    simp only at h
    have hs := List.takeWhile_append_dropWhile (p := isSpace u) (l := s)
    split at h
    · rename_i r hr
      split at h
      · rename_i x tail ht
        split at h
        · rename_i hc
          rw [Bool.and_eq_true, List.all_eq_true] at hc
          have hr' := List.takeWhile_append_dropWhile (p := (· != '}')) (l := r)
          have hx : x = '}' := by
            have := head_dropWhile (p := (· != '}')) (s := r) (c := x) (by rw [ht]; rfl)
            simpa using this
          cases h
          subst hx
          refine ⟨s.takeWhile (isSpace u), tail, ?_, takeWhile_all, hc.2, ?_, ?_⟩
          · rw [ht] at hr'
            rw [hr', ← hr, hs]
          · intro h0; rw [h0] at hc; simp at hc
          · intro hm
            have := takeWhile_all (p := (· != '}')) (s := r) _ hm
            simp at this
        · cases h
      · cases h
    · cases h
  · rintro ⟨a, b, rfl, ha, hb, hne, hn⟩
    have h1 : (a ++ '$' :: '{' :: (e ++ '}' :: b)).dropWhile (isSpace u) = '$' :: '{' :: (e ++ '}' :: b) := by
      rw [dropWhile_append_all ha]
      exact dropWhile_of_head (by intro c hc; cases hc; rfl)
    have hall : ∀ c ∈ e, (c != '}') = true := by
      intro c hc
      simp only [bne_iff_ne, ne_eq]
      rintro rfl; exact hn hc
    have h2 : (e ++ '}' :: b).dropWhile (· != '}') = '}' :: b := by
      rw [dropWhile_append_all hall]
      exact dropWhile_of_head (by intro c hc; cases hc; rfl)
    have h3 : (e ++ '}' :: b).takeWhile (· != '}') = e := by
      have := List.takeWhile_append_dropWhile (p := (· != '}')) (l := e ++ '}' :: b)
      rw [h2] at this
      exact List.append_cancel_right this
    unfold variableExpr
    rw [h1]
    simp only [h2, h3]
    rw [if_pos]
    rw [Bool.and_eq_true, List.all_eq_true]
    refine ⟨?_, hb⟩
    cases e with
    | nil => exact absurd rfl hne
    | cons _ _ => rfl

theorem varRef_iff (u : Chars) (s e : Str) : VarRef u s e ↔ ∃ i, variableExpr u s = some i ∧ strip u i = e := by
  constructor
  · rintro ⟨a, i, b, h1, h2, h3, h4, h5, h6⟩
    exact ⟨i, (variableExpr_iff u s i).2 ⟨a, b, h1, h2, h3, h4, h5⟩, stripBy_eq_of h6⟩
  · rintro ⟨i, hi, rfl⟩
    obtain ⟨a, b, h1, h2, h3, h4, h5⟩ := (variableExpr_iff u s i).1 hi
    exact ⟨a, i, b, h1, h2, h3, h4, h5, stripped_stripBy _ _⟩

/-- C52. A text refers to at most one expression. -/
theorem C52_unique (u : Chars) (s e e' : Str) (h : VarRef u s e) (h' : VarRef u s e') : e = e' := by
  obtain ⟨i, hi, rfl⟩ := (varRef_iff u s e).1 h
  obtain ⟨i', hi', rfl⟩ := (varRef_iff u s e').1 h'
  rw [hi] at hi'; cases hi'; rfl

/-- C52. A reference is evaluated, as the trimmed inner text. -/
theorem C52_evaluated (env : Env) (t : Templates) (s e : Str) (h : VarRef env.u s e) :
    interpolateParams env t true (.str s) = t.evaluate e := by
  obtain ⟨i, hi, rfl⟩ := (varRef_iff env.u s e).1 h
  have : s.isEmpty = false := by
    obtain ⟨a, _, _, rfl, _⟩ := h
    cases a <;> rfl
  simp [interpolateParams, this, hi]

/-- C52. Any other text is returned unchanged, the template engine is not consulted. -/
theorem C52_unchanged (env : Env) (t : Templates) (s : Str) (h : PlainText env.u s) :
    interpolateParams env t true (.str s) = .ok (.str s) := by
  have hv : variableExpr env.u s = none := by
    cases hv : variableExpr env.u s with
    | none => rfl
    | some i => exact absurd ((varRef_iff env.u s _).2 ⟨i, hv, rfl⟩) (h _)
  cases s with
  | nil => rfl
  | cons c r => simp [interpolateParams, hv]

/-- C52. Converse: an engine that fails on everything tells references from other texts. -/
theorem C52_iff (env : Env) (t : Templates) (s : Str) (ht : ∀ e, t.evaluate e = .error .undefinedParameter) :
    interpolateParams env t true (.str s) = .error .undefinedParameter ↔ ∃ e, VarRef env.u s e := by
  by_cases h : ∃ e, VarRef env.u s e
  · obtain ⟨e, h⟩ := h
    simp only [C52_evaluated env t s e h, ht, true_iff]
    exact ⟨e, h⟩
  · simp only [h, iff_false]
    rw [C52_unchanged env t s (fun e he => h ⟨e, he⟩)]
    simp

/-- C52. Templates in full mode: the empty text gives itself, anything else is rendered. -/
theorem C52_full (env : Env) (t : Templates) (s : Str) :
    interpolateParams env t false (.str s) = if s = [] then .ok (.str []) else t.render s := by
  cases s <;> simp [interpolateParams]

/-- C52. Subjects that are not texts are refused. -/
theorem C52_not_text (env : Env) (t : Templates) (simple : Bool) (v : Val) (h : ∀ s, v ≠ .str s) :
    interpolateParams env t simple v = .error (.py .valueError) := by
  cases v with
  | str s => exact absurd rfl (h s)
  | _ => rfl

/-! ### Values without variables -/

theorem leafStays_fixed {env : Env} {t : Templates} {k : Leaf} {v : Val} (h : LeafStays env t k v) :
    interpolateLeaf env t k v = .ok v ∧ (v = .none → interpolateLeaf env t k v = .ok .none) := by
  suffices hs : interpolateLeaf env t k v = .ok v from ⟨hs, fun hv => hv ▸ hs⟩
  have hp : ∀ s, PlainText env.u s → interpolateParams env t true (.str s) = .ok (.str s) := C52_unchanged env t
  have hr : ∀ s, RendersAsIs t s → interpolateParams env t false (.str s) = .ok (.str s) := by
    intro s hs
    rw [C52_full]
    rcases hs with rfl | hs
    · rfl
    · split
      · rename_i h0; rw [h0]
      · exact hs
  cases k with
  | integer a b => obtain ⟨i, rfl⟩ := h; rfl
  | float a b => obtain ⟨i, rfl⟩ := h; rfl
  | decimal a b => obtain ⟨i, rfl⟩ := h; rfl
  | text a b c d => obtain ⟨s, rfl, hs⟩ := h; exact hr s hs
  | email a b c d => obtain ⟨s, rfl, hs⟩ := h; exact hr s hs
  | token a => obtain ⟨s, rfl, hs⟩ := h; exact hr s hs
  | uuid => obtain ⟨s, rfl, hs⟩ := h; exact hp s hs
  | enumeration vals ig =>
    have : pyIn v vals = true := List.any_eq_true.2 h
    simp [interpolateLeaf, this]
  | surrogate a => obtain ⟨i, rfl⟩ := h; rfl
  | binary a b => obtain ⟨i, rfl⟩ | ⟨s, rfl, hs⟩ := h; rfl; exact hp s hs
  | boolean => obtain ⟨i, rfl⟩ | ⟨s, rfl, hs⟩ := h; rfl; exact hp s hs
  | date a b => obtain ⟨i, rfl⟩ | ⟨i, rfl⟩ | ⟨s, rfl, hs⟩ := h; rfl; rfl; exact hp s hs
  | datetime a b c => obtain ⟨i, rfl⟩ | ⟨s, rfl, hs⟩ := h; rfl; exact hp s hs
  | time a b => obtain ⟨i, rfl⟩ | ⟨s, rfl, hs⟩ := h; rfl; exact hp s hs
  | definition a => obtain ⟨i, rfl⟩ | ⟨s, rfl, hs⟩ := h; rfl; exact hp s hs
  | any => obtain ⟨s, rfl, hs⟩ := h; exact hp s hs
  | object => obtain ⟨s, rfl, hs⟩ := h; exact hp s hs
  | error => obtain ⟨s, rfl, hs⟩ := h; exact hp s hs

theorem notUndefined_ok {r : Except Exn Val} {x : Option Val} :
    notUndefined r = .ok x ↔ (∃ w, r = .ok w ∧ x = some w) ∨ (r = .error .undefinedParameter ∧ x = none) := by
  cases r with
  | ok v => simp [notUndefined, eq_comm]
  | error e => cases e <;> simp [notUndefined, eq_comm]

section
variable {env : Env} {rec : Ext}

theorem extractChild_eq {f g : Field} {v : Val} (h : resolve env f = some g) : extractChild env rec f v = rec g v := by
  simp [extractChild, h]

theorem interpolateItems_same {item : Field} {l : List Val} (h1 : l ≠ [] → ∃ g, resolve env item = some g)
    (h2 : ∀ g, resolve env item = some g → ∀ x ∈ l, ∃ w, rec g x = .ok w ∧ SameData x w) :
    ∃ l', interpolateItems env rec item l = .ok l' ∧ SameItems l l' := by
  induction l with
  | nil => exact ⟨[], rfl, .nil⟩
  | cons v r ih =>
    obtain ⟨g, hg⟩ := h1 (by simp)
    obtain ⟨w, hw, hs⟩ := h2 g hg v (List.mem_cons_self ..)
    obtain ⟨l', hl', hs'⟩ := ih (fun _ => ⟨g, hg⟩) (fun g hg x hx => h2 g hg x (List.mem_cons_of_mem _ hx))
    exact ⟨w :: l', by simp [interpolateItems, extractChild_eq hg, hw, hl'], .cons hs hs'⟩

theorem interpolateSlots_same {fs : List Field} {l : List Val} (h0 : l.length = fs.length)
    (h1 : ∀ p ∈ fs.zip l, ∃ g, resolve env p.1 = some g)
    (h2 : ∀ p ∈ fs.zip l, ∀ g, resolve env p.1 = some g → ∃ w, rec g p.2 = .ok w ∧ SameData p.2 w) :
    ∃ l', interpolateSlots env rec fs l = .ok l' ∧ SameItems l l' := by
  induction fs generalizing l with
  | nil =>
    cases l with
    | nil => exact ⟨[], rfl, .nil⟩
    | cons _ _ => simp at h0
  | cons f fs ih =>
    cases l with
    | nil => simp at h0
    | cons v r =>
      simp only [List.zip_cons_cons, List.forall_mem_cons] at h1 h2
      obtain ⟨g, hg⟩ := h1.1
      obtain ⟨w, hw, hs⟩ := h2.1 g hg
      obtain ⟨l', hl', hs'⟩ := ih (by simpa using h0) h1.2 h2.2
      exact ⟨w :: l', by simp [interpolateSlots, extractChild_eq hg, hw, hl'], .cons hs hs'⟩

theorem interpolateEntries_same {value : Field} {d : List (Val × Val)} (h1 : d ≠ [] → ∃ g, resolve env value = some g)
    (h2 : ∀ g, resolve env value = some g → ∀ e ∈ d, ∃ w, rec g e.2 = .ok w ∧ SameData e.2 w) :
    ∃ d', interpolateEntries env rec value d = .ok d' ∧ SameEntries d d' := by
  induction d with
  | nil => exact ⟨[], rfl, .nil⟩
  | cons e r ih =>
    obtain ⟨k, v⟩ := e
    obtain ⟨g, hg⟩ := h1 (by simp)
    obtain ⟨w, hw, hs⟩ := h2 g hg _ (List.mem_cons_self ..)
    obtain ⟨l', hl', hs'⟩ := ih (fun _ => ⟨g, hg⟩) (fun g hg x hx => h2 g hg x (List.mem_cons_of_mem _ hx))
    exact ⟨(k, w) :: l', by simp [interpolateEntries, extractChild_eq hg, hw, hl', notUndefined, keepEntry], .cons hs hs'⟩

/-- What the loop over the members returns. -/
theorem interpolateMembers_spec {d : List (Val × Val)} {defn : List (Str × Field)} {out : List (Val × Val)}
    (hnd : (defn.map (·.1)).Nodup) (h : interpolateMembers env rec d defn = .ok out) :
    (out.map (·.1)).Sublist (defn.map fun e => Val.str e.1) ∧
    ∀ name w, (Val.str name, w) ∈ out ↔ ∃ f g v, defn.lookup name = some f ∧ given d name = some v ∧
      resolve env f = some g ∧ rec g v = .ok w := by
  induction defn generalizing out with
  | nil => simp only [interpolateMembers, Except.ok.injEq] at h; subst h; simp
  | cons e r ih =>
    obtain ⟨nm, f⟩ := e
    rw [List.map_cons, List.nodup_cons] at hnd
    have hlk : ∀ {name x}, (List.lookup name ((nm, f) :: r) = some x) ↔
        (name = nm ∧ x = f) ∨ (name ≠ nm ∧ r.lookup name = some x) := by
      intro name x
      rw [List.lookup_cons]
      by_cases hn : name = nm
      · subst hn; simp [eq_comm]
      · have : (name == nm) = false := by simpa using hn
        simp [this, hn]
    have hne : ∀ {name x}, r.lookup name = some x → name ≠ nm := by
      rintro name x hx rfl
      exact hnd.1 (List.mem_map.2 ⟨_, lookup_mem hx, rfl⟩)
    rw [interpolateMembers, dictGet_str_eq_given] at h
    cases hgv : given d nm with
    | none =>
      simp only [hgv] at h
      obtain ⟨h1, h2⟩ := ih hnd.2 h
      refine ⟨h1.cons _, fun name w => ?_⟩
      rw [h2]
      constructor
      · rintro ⟨f', g, v, a, b⟩; exact ⟨f', g, v, hlk.2 (.inr ⟨hne a, a⟩), b⟩
      · rintro ⟨f', g, v, a, b, c⟩
        rcases hlk.1 a with ⟨rfl, -⟩ | ⟨-, a⟩
        · rw [hgv] at b; cases b
        · exact ⟨f', g, v, a, b, c⟩
    | some v =>
      simp only [hgv, except_bind_eq_ok, except_pure, Except.ok.injEq] at h
      obtain ⟨x, hx, r', hr', rfl⟩ := h
      obtain ⟨h1, h2⟩ := ih hnd.2 hr'
      rcases notUndefined_ok.1 hx with ⟨w0, hw0, rfl⟩ | ⟨hu, rfl⟩
      · obtain ⟨g0, hg0, hw1⟩ := extractChild_ok.1 hw0
        refine ⟨h1.cons_cons _, fun name w => ?_⟩
        simp only [keepEntry, List.mem_cons, Prod.mk.injEq, Val.str.injEq, h2]
        constructor
        · rintro (⟨rfl, rfl⟩ | ⟨f', g, v', a, b⟩)
          · exact ⟨f, g0, v, hlk.2 (.inl ⟨rfl, rfl⟩), hgv, hg0, hw1⟩
          · exact ⟨f', g, v', hlk.2 (.inr ⟨hne a, a⟩), b⟩
        · rintro ⟨f', g, v', a, b, c, e⟩
          rcases hlk.1 a with ⟨rfl, rfl⟩ | ⟨-, a⟩
          · rw [hgv] at b; cases b
            rw [hg0] at c; cases c
            rw [hw1] at e; cases e
            exact .inl ⟨rfl, rfl⟩
          · exact .inr ⟨f', g, v', a, b, c, e⟩
      · refine ⟨h1.cons _, fun name w => ?_⟩
        simp only [keepEntry, h2]
        constructor
        · rintro ⟨f', g, v, a, b⟩; exact ⟨f', g, v, hlk.2 (.inr ⟨hne a, a⟩), b⟩
        · rintro ⟨f', g, v', a, b, c, e⟩
          rcases hlk.1 a with ⟨rfl, rfl⟩ | ⟨-, a⟩
          · rw [hgv] at b; cases b
            rw [extractChild_eq c, e] at hu; cases hu
          · exact ⟨f', g, v', a, b, c, e⟩

theorem interpolateMembers_total {d : List (Val × Val)} {defn : List (Str × Field)} :
    (∃ out, interpolateMembers env rec d defn = .ok out) ↔
    ∀ e ∈ defn, ∀ v, given d e.1 = some v → ∃ g, resolve env e.2 = some g ∧
      ((∃ w, rec g v = .ok w) ∨ rec g v = .error .undefinedParameter) := by
  induction defn with
  | nil => simp [interpolateMembers]
  | cons e r ih =>
    obtain ⟨nm, f⟩ := e
    rw [interpolateMembers, dictGet_str_eq_given, List.forall_mem_cons]
    cases hgv : given d nm with
    | none => simp only [hgv]; rw [ih]; simp
    | some v =>
      simp only [hgv, except_bind_eq_ok, except_pure, Except.ok.injEq]
      have hx : (∃ x, notUndefined (extractChild env rec f v) = .ok x) ↔ ∃ g, resolve env f = some g ∧
          ((∃ w, rec g v = .ok w) ∨ rec g v = .error .undefinedParameter) := by
        constructor
        · rintro ⟨x, hx⟩
          rcases notUndefined_ok.1 hx with ⟨w, hw, -⟩ | ⟨hu, -⟩
          · obtain ⟨g, hg, hw⟩ := extractChild_ok.1 hw
            exact ⟨g, hg, .inl ⟨w, hw⟩⟩
          · cases hg : resolve env f with
            | none => simp [extractChild, hg] at hu
            | some g => exact ⟨g, rfl, .inr (by rwa [extractChild_eq hg] at hu)⟩
        · rintro ⟨g, hg, ⟨w, hw⟩ | hu⟩
          · exact ⟨some w, by rw [extractChild_eq hg, hw]; rfl⟩
          · exact ⟨none, by rw [extractChild_eq hg, hu]; rfl⟩
      constructor
      · rintro ⟨out, x, hx', r', hr', -⟩
        refine ⟨fun v' hv' => ?_, ih.1 ⟨r', hr'⟩⟩
        cases hv'; exact hx.1 ⟨x, hx'⟩
      · rintro ⟨h1, h2⟩
        obtain ⟨x, hx'⟩ := hx.2 (h1 v rfl)
        obtain ⟨r', hr'⟩ := ih.2 h2
        exact ⟨_, x, hx', r', hr', rfl⟩

theorem interpolateMembers_same {d : List (Val × Val)} {defn : List (Str × Field)} (hnd : (defn.map (·.1)).Nodup)
    (hd : (d.map (·.1)).Nodup)
    (h1 : ∀ e ∈ d, ∃ name f g, e.1 = .str name ∧ defn.lookup name = some f ∧ resolve env f = some g)
    (h2 : ∀ e ∈ d, ∀ name f g, e.1 = .str name → defn.lookup name = some f → resolve env f = some g →
      ∃ w, rec g e.2 = .ok w ∧ SameData e.2 w) :
    ∃ out, interpolateMembers env rec d defn = .ok out ∧ SameData (.dict d) (.dict out) := by
  have hlook : ∀ e ∈ defn, defn.lookup e.1 = some e.2 := by
    intro e he
    clear h1 h2
    induction defn with
    | nil => cases he
    | cons a r ih =>
      rw [List.map_cons, List.nodup_cons] at hnd
      obtain ⟨n, f⟩ := a
      rw [List.lookup_cons]
      rcases List.mem_cons.1 he with rfl | he
      · simp
      · have : (e.1 == n) = false := by
          simp only [beq_eq_false_iff_ne, ne_eq]
          intro h; exact hnd.1 (List.mem_map.2 ⟨e, he, h⟩)
        simp only [this]; exact ih hnd.2 he
  have hval : ∀ name v f, given d name = some v → defn.lookup name = some f →
      ∃ g w, resolve env f = some g ∧ rec g v = .ok w ∧ SameData v w := by
    intro name v f hv hf
    have hm := mem_of_given hv
    obtain ⟨name', f', g, hk, hf', hg⟩ := h1 _ hm
    cases hk
    rw [hf] at hf'; cases hf'
    obtain ⟨w, hw, hs⟩ := h2 _ hm name f g rfl hf hg
    exact ⟨g, w, hg, hw, hs⟩
  obtain ⟨out, hout⟩ : ∃ out, interpolateMembers env rec d defn = .ok out := by
    rw [interpolateMembers_total]
    intro e he v hv
    obtain ⟨g, w, hg, hw, -⟩ := hval e.1 v e.2 hv (hlook e he)
    exact ⟨g, hg, .inl ⟨w, hw⟩⟩
  refine ⟨out, hout, ?_⟩
  obtain ⟨hsub, hmem⟩ := interpolateMembers_spec hnd hout
  have hkeys : ∀ e ∈ out, ∃ name, e.1 = .str name := by
    intro e he
    have := hsub.subset (List.mem_map.2 ⟨e, he, rfl⟩)
    obtain ⟨a, -, ha⟩ := List.mem_map.1 this
    exact ⟨a.1, ha.symm⟩
  have halign : ∀ l, (∀ e ∈ l, e ∈ out) → ∃ l', SameEntries l' l ∧ l'.map (·.1) = l.map (·.1) ∧ ∀ e ∈ l', e ∈ d := by
    intro l hl
    induction l with
    | nil => exact ⟨[], .nil, rfl, by simp⟩
    | cons e r ih =>
      obtain ⟨l', a, b, c⟩ := ih fun e he => hl e (List.mem_cons_of_mem _ he)
      have he := hl e (List.mem_cons_self ..)
      obtain ⟨k, w⟩ := e
      obtain ⟨name, hk⟩ := hkeys _ he
      simp only at hk; subst hk
      obtain ⟨f, g, v, hf, hv, hg, hw⟩ := (hmem name w).1 he
      obtain ⟨g', w', hg', hw', hs⟩ := hval name v f hv hf
      rw [hg] at hg'; cases hg'
      rw [hw] at hw'; cases hw'
      refine ⟨(.str name, v) :: l', .cons hs a, by simp [b], ?_⟩
      intro e he
      rcases List.mem_cons.1 he with rfl | he
      · exact mem_of_given hv
      · exact c e he
  obtain ⟨l', a, b, c⟩ := halign out fun _ h => h
  have hnodup : (out.map (·.1)).Nodup := hsub.nodup (by
    rw [show (defn.map fun e => Val.str e.1) = (defn.map (·.1)).map Val.str by simp]
    exact List.pairwise_map.2 (hnd.imp fun h h' => h (by cases h'; rfl)))
  refine .dict l' (perm_of_nodup ?_ ?_ fun e => ⟨fun he => ?_, c e⟩) a
  · exact List.Pairwise.of_map (·.1) (fun _ _ h h' => h (congrArg _ h')) hd
  · exact List.Pairwise.of_map (·.1) (fun _ _ h h' => h (congrArg _ h')) (b ▸ hnodup)
  · obtain ⟨name, f, g, hk, hf, hg⟩ := h1 e he
    obtain ⟨k, v⟩ := e
    simp only at hk; subst hk
    have hv := given_of_mem hd he
    obtain ⟨w, hw, -⟩ := h2 _ he name f g rfl hf hg
    have hm := (hmem name w).2 ⟨f, g, v, hf, hv, hg, hw⟩
    have : Val.str name ∈ l'.map (·.1) := by rw [b]; exact List.mem_map.2 ⟨_, hm, rfl⟩
    obtain ⟨⟨k', v'⟩, he', hk'⟩ := List.mem_map.1 this
    simp only at hk'; subst hk'
    have := given_of_mem hd (c _ he')
    rw [hv] at this; cases this
    exact he'

end

theorem interpolate_container {env : Env} {t : Templates} {n : Nat} {f : Field} {v : Val} (hf : ∀ s, f ≠ .undef s)
    (hl : ∀ c k, f ≠ .leaf c k) (hv : v ≠ .none) (hs : ∀ s, v ≠ .str s) :
    interpolate env t (n + 1) f v = interpolateBody env (interpolate env t n) f v := by
  have h1 : v.isNone = false := by cases v <;> simp_all [Val.isNone]
  have h2 : v.isStr = false := by cases v <;> simp_all [Val.isStr]
  cases f with
  | undef s => exact absurd rfl (hf s)
  | leaf c k => exact absurd rfl (hl c k)
  | _ => simp [interpolate, interpolateStep, h1, h2]

/-- C38. A native value without variables is returned as it is, members of structures possibly in another order. -/
theorem C38_unchanged (env : Env) (t : Templates) (n : Nat) (f : Field) (v : Val) (hn : v.depth < n)
    (hd : Everywhere env DistinctNames f) (h : VarFree env t f v) :
    ∃ w, interpolate env t n f v = .ok w ∧ SameData v w := by
  induction n generalizing f v with
  | zero => omega
  | succ n ih =>
    cases h with
    | null hf =>
      refine ⟨.none, ?_, .refl _⟩
      cases f with
      | undef s => exact absurd rfl (hf s)
      | _ => rfl
    | @leaf c k _ hk =>
      refine ⟨v, ?_, .refl _⟩
      by_cases hv : v.isNone = true
      · have : v = .none := by cases v <;> simp_all [Val.isNone]
        subst this; rfl
      · simp only [interpolate, interpolateStep, hv, if_false, Bool.false_eq_true]
        exact (leafStays_fixed hk).1
    | @«sequence» c item mn mx u l h1 h2 =>
      rw [interpolate_container (by simp) (by simp) (by simp) (by simp)]
      obtain ⟨l', hl', hs⟩ := interpolateItems_same (rec := interpolate env t n) h1 fun g hg x hx =>
        ih g x (by have := depthL_mem hx; simp only [Val.depth] at hn; omega) (hd.child (.item hg)) (h2 g hg x hx)
      exact ⟨.list l', by simp [interpolateBody, hl', Except.map], .list hs⟩
    | @map c key value req d h1 h2 =>
      rw [interpolate_container (by simp) (by simp) (by simp) (by simp)]
      obtain ⟨l', hl', hs⟩ := interpolateEntries_same (rec := interpolate env t n) h1 fun g hg x hx =>
        ih g x.2 (by have := (depthD_mem hx).2; simp only [Val.depth] at hn; omega) (hd.child (.value hg)) (h2 g hg x hx)
      exact ⟨.dict l', by simp [interpolateBody, hl', Except.map], .dict _ (.refl _) hs⟩
    | @tuple c fs l h0 h1 h2 =>
      rw [interpolate_container (by simp) (by simp) (by simp) (by simp)]
      obtain ⟨l', hl', hs⟩ := interpolateSlots_same (rec := interpolate env t n) h0 h1 fun p hp g hg =>
        ih g p.2 (by have := depthL_mem (List.of_mem_zip hp).2; simp only [Val.depth] at hn; omega)
          (hd.child (.tuple (List.of_mem_zip hp).1 hg)) (h2 p hp g hg)
      exact ⟨.tuple l', by simp [interpolateBody, hl', Except.map], .tuple hs⟩
    | @«structure» c defn s ko d h0 h1 h2 =>
      rw [interpolate_container (by simp) (by simp) (by simp) (by simp)]
      obtain ⟨l', hl', hs⟩ := interpolateMembers_same (rec := interpolate env t n) hd.here h0 h1 fun e he name f g hk hf hg =>
        ih g e.2 (by have := (depthD_mem he).2; simp only [Val.depth] at hn; omega)
          (hd.child (.member (lookup_mem hf) hg)) (h2 e he name f g hk hf hg)
      exact ⟨.dict l', by simp [interpolateBody, hl', Except.map], hs⟩
    | @poly c disc vs s ko d id defn hid ht hh hdef h0 h1 h2 =>
      rw [interpolate_container (by simp) (by simp) (by simp) (by simp)]
      rw [variantIn_eq] at hdef
      obtain ⟨i, hi, -⟩ := variantGet_mem' hdef
      obtain ⟨l', hl', hs⟩ := interpolateMembers_same (rec := interpolate env t n) (hd.here _ hi) h0 h1 fun e he name f g hk hf hg =>
        ih g e.2 (by have := (depthD_mem he).2; simp only [Val.depth] at hn; omega)
          (hd.child (.variant hi (lookup_mem hf) hg)) (h2 e he name f g hk hf hg)
      refine ⟨.dict l', ?_, hs⟩
      simp only [interpolateBody, dictGet_str_eq_given, hid, ht, if_true, variantAt_ok.2 ⟨hh, hdef⟩, except_bind_ok, hl']
      rfl

/-! ### References -/

/-- The leaf types that evaluate a reference and return its value as it is. -/
def evaluatesRaw : Leaf → Bool
  | .any | .binary .. | .boolean | .date .. | .datetime .. | .definition _ | .error | .object | .time .. | .uuid => true
  | _ => false

/-- C38. A text that is a reference is replaced by the native value of the expression, for the types that do not
convert. -/
theorem C38_reference (env : Env) (t : Templates) (n : Nat) (c : Common) (k : Leaf) (s e : Str)
    (hk : evaluatesRaw k = true) (h : VarRef env.u s e) :
    interpolate env t (n + 1) (.leaf c k) (.str s) = t.evaluate e := by
  rw [← C52_evaluated env t s e h]
  cases k <;> first | rfl | simp [evaluatesRaw] at hk

/-- C38. Number types convert the value of the expression. -/
theorem C38_reference_number (env : Env) (t : Templates) (n : Nat) (c : Common) (s e : Str) (h : VarRef env.u s e) (v : Val)
    (hv : t.evaluate e = .ok v) :
    (∀ a b, interpolate env t (n + 1) (.leaf c (.integer a b)) (.str s) = converted .int (toInt env v)) ∧
    (∀ a b, interpolate env t (n + 1) (.leaf c (.float a b)) (.str s) = converted .float (toFloat env v)) ∧
    (∀ a b, interpolate env t (n + 1) (.leaf c (.decimal a b)) (.str s) = converted .decimal (toDec env v)) := by
  have h' := C52_evaluated env t s e h
  rw [hv] at h'
  refine ⟨fun a b => ?_, fun a b => ?_, fun a b => ?_⟩ <;>
    simp [interpolate, interpolateStep, interpolateLeaf, Val.isNone, isNumber, h']

/-- C38. Number types take numbers given directly, flags being numbers too. -/
theorem C38_numbers (env : Env) (t : Templates) (n : Nat) (c : Common) :
    (∀ a b i, interpolate env t (n + 1) (.leaf c (.integer a b)) (.int i) = .ok (.int i)) ∧
    (∀ a b p, interpolate env t (n + 1) (.leaf c (.integer a b)) (.bool p) = .ok (.int (if p then 1 else 0))) ∧
    (∀ a b q i, Truncated q i → interpolate env t (n + 1) (.leaf c (.integer a b)) (.float (.fin q)) = .ok (.int i)) ∧
    (∀ a b x, interpolate env t (n + 1) (.leaf c (.float a b)) (.float x) = .ok (.float x)) ∧
    (∀ a b p, interpolate env t (n + 1) (.leaf c (.float a b)) (.bool p) = .ok (.float (.fin (if p then 1 else 0)))) ∧
    (∀ a b i x, env.floatOfInt i = some x → interpolate env t (n + 1) (.leaf c (.float a b)) (.int i) = .ok (.float x)) := by
  refine ⟨fun a b i => rfl, fun a b p => rfl, fun a b q i h => ?_, fun a b x => rfl, fun a b p => rfl, fun a b i x h => ?_⟩
  · rw [(truncated_iff q i).1 h]
    rfl
  · simp [interpolate, interpolateStep, interpolateLeaf, Val.isNone, isNumber, toFloat, h, converted]

/-- C38. A reference given for a container is replaced by its value, which is then interpolated like a subject given
directly; a value that is None or a text is refused. -/
theorem C38_reference_container (env : Env) (t : Templates) (n : Nat) (f : Field) (s e : Str) (v : Val)
    (hf : ∀ s, f ≠ .undef s) (hl : ∀ c k, f ≠ .leaf c k) (hu : ∀ c fs, f ≠ .union c fs) (h : VarRef env.u s e)
    (hv : t.evaluate e = .ok v) :
    interpolate env t (n + 1) f (.str s) =
      if v.isNone || v.isStr then .error .cannotInterpolate else interpolate env t (n + 1) f v := by
  have h' := C52_evaluated env t s e h
  rw [hv] at h'
  have h1 : interpolate env t (n + 1) f (.str s) = interpolateBody env (interpolate env t n) f v := by
    cases f with
    | undef s => exact absurd rfl (hf s)
    | leaf c k => exact absurd rfl (hl c k)
    | _ => simp [interpolate, interpolateStep, Val.isNone, Val.isStr, h']
  rw [h1]
  split
  · rename_i hc
    cases v with
    | none => cases f <;> first | rfl | exact absurd rfl (hf _) | exact absurd rfl (hl _ _) | exact absurd rfl (hu _ _)
    | str s => cases f <;> first | rfl | exact absurd rfl (hf _) | exact absurd rfl (hl _ _) | exact absurd rfl (hu _ _)
    | _ => simp [Val.isNone, Val.isStr] at hc
  · rename_i hc
    rw [interpolate_container hf hl]
    · rintro rfl; simp [Val.isNone] at hc
    · rintro s rfl; simp [Val.isStr] at hc

/-! ### Undefined parameters -/

/-- C38. Interpolating a structure: the result holds exactly the declared members that were given and whose own
interpolation succeeded, in the order of declaration. -/
theorem C38_members (env : Env) (t : Templates) (n : Nat) (c : Common) (defn : List (Str × Field)) (s : Bool) (ko : List Str)
    (d : List (Val × Val)) (hnd : (defn.map (·.1)).Nodup) (w : Val)
    (h : interpolate env t (n + 1) (.structure c defn s ko) (.dict d) = .ok w) :
    ∃ out, w = .dict out ∧ (out.map (·.1)).Sublist (defn.map fun e => Val.str e.1) ∧
      ∀ name x, (Val.str name, x) ∈ out ↔ ∃ f g v, defn.lookup name = some f ∧ given d name = some v ∧
        resolve env f = some g ∧ interpolate env t n g v = .ok x := by
  rw [interpolate_container (by simp) (by simp) (by simp) (by simp)] at h
  obtain ⟨out, hout, rfl⟩ := except_map_eq_ok.1 h
  exact ⟨out, rfl, interpolateMembers_spec hnd hout⟩

/-- C38. A structure is interpolated iff every given declared member is, or has an undefined parameter: an undefined
parameter drops the member, any other failure is passed on. -/
theorem C38_members_total (env : Env) (t : Templates) (n : Nat) (c : Common) (defn : List (Str × Field)) (s : Bool) (ko : List Str)
    (d : List (Val × Val)) :
    (∃ w, interpolate env t (n + 1) (.structure c defn s ko) (.dict d) = .ok w) ↔
    ∀ e ∈ defn, ∀ v, given d e.1 = some v → ∃ g, resolve env e.2 = some g ∧
      ((∃ w, interpolate env t n g v = .ok w) ∨ interpolate env t n g v = .error .undefinedParameter) := by
  rw [interpolate_container (by simp) (by simp) (by simp) (by simp)]
  exact mapOk_iff.trans interpolateMembers_total

/-- C38. Interpolating a map: the entries whose parameter is undefined are dropped, the others keep key and order. -/
theorem C38_entries (env : Env) (t : Templates) (n : Nat) (c : Common) (key : Option Field) (value g : Field) (req : List Val)
    (d : List (Val × Val)) (w : Val) (hg : resolve env value = some g)
    (h : interpolate env t (n + 1) (.map c key value req) (.dict d) = .ok w) :
    (∀ e ∈ d, (∃ x, interpolate env t n g e.2 = .ok x) ∨ interpolate env t n g e.2 = .error .undefinedParameter) ∧
    w = .dict (d.filterMap fun e => (interpolate env t n g e.2).toOption.map (e.1, ·)) := by
  rw [interpolate_container (by simp) (by simp) (by simp) (by simp)] at h
  obtain ⟨out, hout, rfl⟩ := except_map_eq_ok.1 h
  clear h
  suffices hs : (∀ e ∈ d, (∃ x, interpolate env t n g e.2 = .ok x) ∨ interpolate env t n g e.2 = .error .undefinedParameter) ∧
      out = d.filterMap fun e => (interpolate env t n g e.2).toOption.map (e.1, ·) from ⟨hs.1, by rw [hs.2]⟩
  induction d generalizing out with
  | nil => simp only [interpolateEntries, Except.ok.injEq] at hout; subst hout; simp
  | cons e r ih =>
    obtain ⟨k, v⟩ := e
    simp only [interpolateEntries, except_bind_eq_ok, except_pure, Except.ok.injEq] at hout
    obtain ⟨x, hx, r', hr', rfl⟩ := hout
    obtain ⟨h1, rfl⟩ := ih _ hr'
    rw [extractChild_eq hg] at hx
    rcases notUndefined_ok.1 hx with ⟨w0, hw0, rfl⟩ | ⟨hu, rfl⟩
    · refine ⟨List.forall_mem_cons.2 ⟨.inl ⟨w0, hw0⟩, h1⟩, ?_⟩
      simp [hw0, Except.toOption, keepEntry]
    · refine ⟨List.forall_mem_cons.2 ⟨.inr hu, h1⟩, ?_⟩
      simp [List.filterMap_cons, hu, Except.toOption, keepEntry]

/-- C38. In a sequence an undefined parameter is not dropped: it is passed on. -/
theorem C38_items (env : Env) (t : Templates) (n : Nat) (c : Common) (item g : Field) (a b : Option Nat) (u : Bool)
    (l : List Val) (x : Val) (hg : resolve env item = some g) (hx : x ∈ l)
    (h : interpolate env t n g x = .error .undefinedParameter) :
    ∀ w, interpolate env t (n + 1) (.sequence c item a b u) (.list l) ≠ .ok w := by
  intro w hw
  rw [interpolate_container (by simp) (by simp) (by simp) (by simp)] at hw
  obtain ⟨out, hout, -⟩ := except_map_eq_ok.1 hw
  clear hw
  induction l generalizing out with
  | nil => cases hx
  | cons v r ih =>
    simp only [interpolateItems, except_bind_eq_ok, extractChild_eq hg] at hout
    obtain ⟨y, hy, r', hr', -⟩ := hout
    rcases List.mem_cons.1 hx with rfl | hx
    · rw [h] at hy; cases hy
    · exact ih hx r' hr'

/-- C38. A union interpolates None only: the code refers to a name that does not exist. -/
theorem C38_union (env : Env) (t : Templates) (n : Nat) (c : Common) (fs : List Field) (v : Val) (hv : v ≠ .none) :
    ∀ w, interpolate env t n (.union c fs) v ≠ .ok w := by
  intro w h
  cases n with
  | zero => cases h
  | succ n =>
    have h1 : v.isNone = false := by cases v <;> simp_all [Val.isNone]
    simp only [interpolate, interpolateStep, h1, Bool.false_eq_true, if_false, interpolateBody] at h
    replace h : interpolateUnion env fs = .ok w := by
      split at h
      · exact (except_bind_eq_ok.1 h).choose_spec.2
      · exact h
    cases fs with
    | nil => cases h
    | cons f r => cases hf : resolve env f <;> simp [interpolateUnion, hf] at h

/-! ### Cases -/

namespace Ex

/-- An engine that knows `a` (5), `l` (a list with a reference in it) and nothing else. -/
def engine : Templates where
  evaluate e := if e = c!"a" then .ok (.int 5) else if e = c!"l" then .ok (.list [.str c!"${a}"]) else .error .undefinedParameter
  render s := .ok (.str s)
  surrogate _ := .error (.py .valueError)

/-- A structure with an integer, a text and a sequence of integers. -/
def order : Field := .structure {} [(c!"n", Ex.int), (c!"t", Ex.text), (c!"l", .sequence {} Ex.int none none false)] true []

end Ex

/-- References are evaluated, undefined ones dropped, undeclared keys ignored. -/
example : interpolate Ex.env Ex.engine 5 Ex.order (.dict [(.str c!"t", .str c!"x"), (.str c!"n", .str c!" ${ a } "), (.str c!"u", .int 1)]) =
    .ok (.dict [(.str c!"n", .int 5), (.str c!"t", .str c!"x")]) := rfl

example : interpolate Ex.env Ex.engine 5 Ex.order (.dict [(.str c!"n", .str c!"${b}"), (.str c!"t", .str c!"x")]) =
    .ok (.dict [(.str c!"t", .str c!"x")]) := rfl

/-- C38. References inside the value of a reference are evaluated as well: data given as a parameter can name
parameters. -/
theorem C38_evaluated_again :
    interpolate Ex.env Ex.engine 5 Ex.order (.dict [(.str c!"l", .str c!"${l}")]) = .ok (.dict [(.str c!"l", .list [.int 5])]) := rfl

/-- C38. What an Enumeration is interpolated to is one of its values. -/
theorem C38_enumeration (env : Env) (t : Templates) (n : Nat) (c : Common) (vals ign : List Val) (v w : Val) (hv : v ≠ .none)
    (h : interpolate env t n (.leaf c (.enumeration vals ign)) v = .ok w) : ∃ m ∈ vals, pyEq w m = true := by
  cases n with
  | zero => cases h
  | succ n =>
    have h1 : v.isNone = false := by cases v <;> simp_all [Val.isNone]
    simp only [interpolate, interpolateStep, h1, Bool.false_eq_true, if_false, interpolateLeaf] at h
    split at h
    · rename_i hp
      cases h
      simpa [pyIn] using hp
    · obtain ⟨x, -, h⟩ := except_bind_eq_ok.1 h
      split at h
      · rename_i hp
        cases h
        simpa [pyIn] using hp
      · cases h

theorem interpolateSlots_ok {env : Env} {rec : Ext} {fs : List Field} {l rs : List Val} :
    interpolateSlots env rec fs l = .ok rs ↔ fs.length ≤ l.length ∧ rs.length = fs.length ∧
      ∀ (i : Nat) f x r, fs[i]? = some f → l[i]? = some x → rs[i]? = some r → ∃ g, resolve env f = some g ∧ rec g x = .ok r := by
  induction fs generalizing l rs with
  | nil =>
    simp only [interpolateSlots, Except.ok.injEq, List.length_nil, Nat.zero_le, true_and, List.getElem?_nil, reduceCtorEq,
      false_implies, implies_true, and_true, List.length_eq_zero_iff]
    exact eq_comm
  | cons f fs ih =>
    cases l with
    | nil => simp [interpolateSlots]
    | cons v r =>
      rw [interpolateSlots, except_bind_eq_ok]
      have hc : ∀ x, extractChild env rec f v = .ok x ↔ ∃ g, resolve env f = some g ∧ rec g v = .ok x := by
        intro x
        unfold extractChild
        cases resolve env f <;> simp
      constructor
      · rintro ⟨x, hx, h⟩
        obtain ⟨r', hr, h⟩ := except_bind_eq_ok.1 h
        cases h
        obtain ⟨h1, h2, h3⟩ := ih.1 hr
        refine ⟨by simpa using h1, by simpa using h2, ?_⟩
        intro i f' x' y' h4 h5 h6
        cases i with
        | zero =>
          simp only [List.getElem?_cons_zero, Option.some.injEq] at h4 h5 h6
          subst h4 h5 h6
          exact (hc _).1 hx
        | succ i => exact h3 i f' x' y' (by simpa using h4) (by simpa using h5) (by simpa using h6)
      · rintro ⟨h1, h2, h3⟩
        cases rs with
        | nil => simp at h2
        | cons y ys =>
          refine ⟨y, (hc _).2 (h3 0 f v y rfl rfl rfl), ?_⟩
          rw [ih.2 ⟨by simpa using h1, by simpa using h2, fun i f' x' y' h4 h5 h6 => h3 (i + 1) f' x' y' (by simpa using h4)
            (by simpa using h5) (by simpa using h6)⟩]
          rfl

/-- C38. A tuple is interpolated field by field; too few values are refused, further ones dropped. -/
theorem C38_slots (env : Env) (t : Templates) (n : Nat) (c : Common) (fs : List Field) (v w : Val) (l : List Val)
    (hv : v = .list l ∨ v = .tuple l) :
    interpolate env t (n + 1) (.tuple c fs) v = .ok w ↔ fs.length ≤ l.length ∧ ∃ rs, w = .tuple rs ∧ rs.length = fs.length ∧
      ∀ (i : Nat) f x r, fs[i]? = some f → l[i]? = some x → rs[i]? = some r → ∃ g, resolve env f = some g ∧
        interpolate env t n g x = .ok r := by
  have : interpolate env t (n + 1) (.tuple c fs) v = (interpolateSlots env (interpolate env t n) fs l).map .tuple := by
    rcases hv with rfl | rfl <;> rfl
  rw [this, except_map_eq_ok]
  constructor
  · rintro ⟨rs, h, rfl⟩
    obtain ⟨h1, h2, h3⟩ := interpolateSlots_ok.1 h
    exact ⟨h1, rs, rfl, h2, h3⟩
  · rintro ⟨h1, rs, rfl, h2, h3⟩
    exact ⟨rs, interpolateSlots_ok.2 ⟨h1, h2, h3⟩, rfl⟩

/-- C38. A subject of another type than the container's is refused. -/
theorem C38_other_type (env : Env) (t : Templates) (n : Nat) (f : Field) (v : Val) (hn : v ≠ .none) (hs : ∀ s, v ≠ .str s) :
    match f with
    | .sequence .. | .tuple .. => (∀ l, v ≠ .list l) → (∀ l, v ≠ .tuple l) →
        interpolate env t (n + 1) f v = .error .cannotInterpolate
    | .map .. | .structure .. | .poly .. => (∀ d, v ≠ .dict d) → interpolate env t (n + 1) f v = .error .cannotInterpolate
    | _ => True := by
  cases f <;> simp only <;> cases v <;> simp_all [interpolate, interpolateStep, interpolateBody, Val.isNone, Val.isStr, bind, Except.bind]

/-- C38. A plain or Object field refuses native values that are not texts. -/
theorem C38_native_refused (env : Env) (t : Templates) (n : Nat) (c : Common) (i : Int) :
    interpolate env t (n + 1) (.leaf c .any) (.int i) = .error (.py .valueError) ∧
    interpolate env t (n + 1) (.leaf c .object) (.int i) = .error (.py .valueError) := ⟨rfl, rfl⟩

example : VarFree Ex.env Ex.engine Ex.order (.dict [(.str c!"t", .str c!"x"), (.str c!"n", .int 3), (.str c!"l", .list [.int 1])]) := by
  refine .structure (by simp) ?_ ?_
  · intro e he
    simp only [List.mem_cons, List.not_mem_nil, or_false] at he
    rcases he with rfl | rfl | rfl
    · exact ⟨_, _, _, rfl, rfl, rfl⟩
    · exact ⟨_, _, _, rfl, rfl, rfl⟩
    · exact ⟨_, _, _, rfl, rfl, rfl⟩
  · intro e he name f g hk hf hg
    simp only [List.mem_cons, List.not_mem_nil, or_false] at he
    rcases he with rfl | rfl | rfl <;> cases hk <;> cases hf <;> cases hg
    · exact .leaf ⟨_, rfl, .inr rfl⟩
    · exact .leaf ⟨_, rfl⟩
    · refine .sequence (fun _ => ⟨_, rfl⟩) fun g hg x hx => ?_
      cases hg
      simp only [List.mem_cons, List.not_mem_nil, or_false] at hx
      subst hx
      exact .leaf ⟨_, rfl⟩

example : VarRef Ex.chars c!" ${ a } " c!"a" :=
  ⟨c!" ", c!" a ", c!" ", rfl, by decide, by decide, by decide, by decide, c!" ", c!" ", rfl, by decide, by decide, by decide, by decide⟩

example : PlainText Ex.chars c!"x ${a}" := by
  rintro e h
  obtain ⟨i, hi, -⟩ := (varRef_iff _ _ _).1 h
  cases hi

end Scheme
