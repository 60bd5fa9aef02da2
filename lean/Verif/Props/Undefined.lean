import Verif.Model.Undefined

/-! C28: which field a holder of a placeholder ends up with. -/

namespace Scheme

section
variable {F : Type}

/-- The field of the last `define(u, ...)` of a history. -/
def lastDefine (u : Nat) (h : List (WOp F)) : Option F :=
  (h.filterMap fun op => match op with
    | .define v f => if v = u then some f else none
    | _ => none).getLast?

/-- The number of holders a history creates. -/
def created (h : List (WOp F)) : Nat :=
  (h.filter fun op => match op with
    | .create .. => true
    | _ => false).length

/-- How a holder stores a field that arrives later. -/
def later (k : Kind) (i : Nat) (f : F) : Content F :=
  match k with
  | .positional => .field f
  | .structure names => .clone f (names.getD i [])

theorem lastDefine_append (u : Nat) (a b : List (WOp F)) :
    lastDefine u (a ++ b) = (lastDefine u b).or (lastDefine u a) := by
  unfold lastDefine
  rw [List.filterMap_append, List.getLast?_append]

/-- The content at a position. -/
def World.at (w : World F) (h i : Nat) : Option (Content F) := (w.holders[h]?).bind (·.content[i]?)

theorem set_at (h : Holder F) (i j : Nat) (f : F) (hi : i < h.content.length) :
    (h.set i f).content[j]? = if j = i then some (later h.kind i f) else h.content[j]? := by
  obtain ⟨k, c⟩ := h
  have key : ∀ x : Content F, (c.take i ++ [x] ++ c.drop (i + 1))[j]? = if j = i then some x else c[j]? := by
    intro x
    have hi : i < c.length := hi
    by_cases hj : j < i
    · rw [List.append_assoc, List.getElem?_append_left (by simp; omega), List.getElem?_take]
      simp [hj, Nat.ne_of_lt hj]
    · rw [List.append_assoc, List.getElem?_append_right (by simp; omega)]
      simp only [List.length_take, Nat.min_eq_left (Nat.le_of_lt hi)]
      by_cases hji : j = i
      · subst hji; simp
      · simp only [hji, if_false]
        have : j - i = (j - i - 1) + 1 := by omega
        rw [this]
        simp only [List.singleton_append, List.getElem?_cons_succ, List.getElem?_drop]
        congr 1; omega
  cases k with
  | positional => exact key _
  | «structure» names => exact key _

theorem set_kind (h : Holder F) (i : Nat) (f : F) : (h.set i f).kind = h.kind := by
  obtain ⟨k, c⟩ := h
  cases k <;> rfl

theorem set_length (h : Holder F) (i : Nat) (f : F) (hi : i < h.content.length) :
    (h.set i f).content.length = h.content.length := by
  obtain ⟨k, c⟩ := h
  have hi : i < c.length := hi
  cases k <;> simp [Holder.set] <;> omega

/-- The effect of the callbacks of one define. -/
theorem callbacks_run (f : F) (cs : List (Nat × Nat)) (hs : List (Holder F))
    (hv : ∀ c ∈ cs, ∃ h, hs[c.1]? = some h ∧ c.2 < h.content.length) (n : Nat) (h : Holder F) (hn : hs[n]? = some h) :
    ∃ h', (cs.foldl (fun hs c => hs.modify c.1 (·.set c.2 f)) hs)[n]? = some h' ∧ h'.kind = h.kind ∧
      h'.content.length = h.content.length ∧
      ∀ j, j < h.content.length → h'.content[j]? = if (n, j) ∈ cs then some (later h.kind j f) else h.content[j]? := by
  induction cs generalizing hs h with
  | nil => exact ⟨h, hn, rfl, rfl, fun j _ => by simp⟩
  | cons c cs ih =>
    obtain ⟨m, i⟩ := c
    obtain ⟨g, hg, hi⟩ := hv (m, i) (List.mem_cons_self ..)
    have hlen : ∀ (k : Nat) (x : Holder F), hs[k]? = some x →
        ∃ y, (hs.modify m (·.set i f))[k]? = some y ∧ y.kind = x.kind ∧ y.content.length = x.content.length ∧
          ∀ j, j < x.content.length → y.content[j]? = if k = m ∧ j = i then some (later x.kind j f) else x.content[j]? := by
      intro k x hx
      rw [List.getElem?_modify, hx]
      by_cases hk : m = k
      · subst hk
        rw [hx] at hg; cases hg
        simp only [if_true, Option.map_some]
        refine ⟨_, rfl, set_kind .., set_length _ _ _ hi, fun j _ => ?_⟩
        rw [set_at _ _ _ _ hi]
        by_cases hj : j = i
        · subst hj; simp
        · simp [hj]
      · simp only [hk, if_false]
        exact ⟨x, rfl, rfl, rfl, fun j _ => by simp [Ne.symm hk]⟩
    obtain ⟨y, hy, k1, l1, c1⟩ := hlen n h hn
    obtain ⟨z, hz, k2, l2, c2⟩ := ih (hs.modify m (·.set i f)) (by
      intro c hc
      obtain ⟨g', hg', hi'⟩ := hv c (List.mem_cons_of_mem _ hc)
      obtain ⟨y', hy', _, l', _⟩ := hlen c.1 g' hg'
      exact ⟨y', hy', by omega⟩) y hy
    refine ⟨z, hz, k2.trans k1, l2.trans l1, fun j hj => ?_⟩
    rw [c2 j (by omega), c1 j hj, k1]
    by_cases hm : (n, j) ∈ cs
    · simp [hm]
    · by_cases he : n = m ∧ j = i
      · obtain ⟨rfl, rfl⟩ := he; simp
      · have : ¬ ((n, j) = (m, i)) := by simpa using he
        simp [hm, he, this]

theorem mem_registered {w : World F} {u h h' i j : Nat} {args : List (HArg F)} :
    (h', j) ∈ registered w u h i args ↔ h' = h ∧ i ≤ j ∧ ∃ a, args[j - i]? = some a ∧ w.registers u a = true := by
  induction args generalizing i with
  | nil => simp [registered]
  | cons a r ih =>
    rw [registered, List.mem_append, ih]
    constructor
    · rintro (hm | ⟨rfl, h1, a', h2, h3⟩)
      · split at hm
        · simp only [List.mem_singleton, Prod.mk.injEq] at hm
          obtain ⟨rfl, rfl⟩ := hm
          exact ⟨rfl, Nat.le_refl _, a, by simp, ‹_›⟩
        · cases hm
      · refine ⟨rfl, by omega, a', ?_, h3⟩
        have : j - i = (j - (i + 1)) + 1 := by omega
        rw [this]; simpa using h2
    · rintro ⟨rfl, h1, a', h2, h3⟩
      by_cases hj : j = i
      · subst hj
        simp only [Nat.sub_self, List.getElem?_cons_zero, Option.some.injEq] at h2
        subst h2
        left; simp [h3]
      · right
        refine ⟨rfl, by omega, a', ?_, h3⟩
        have : j - i = (j - (i + 1)) + 1 := by omega
        rw [this] at h2; simpa using h2

/-- Every registration points to an existing position. -/
def Registered (w : World F) : Prop :=
  ∀ u, ∀ c ∈ w.callbacks u, ∃ h, w.holders[c.1]? = some h ∧ c.2 < h.content.length

theorem Registered.step {w : World F} (hw : Registered w) (op : WOp F) : Registered (op.run w) := by
  cases op with
  | create k args =>
    intro u c hc
    simp only [WOp.run, World.create, List.mem_append] at hc ⊢
    rcases hc with hc | hc
    · obtain ⟨h, h1, h2⟩ := hw u c hc
      exact ⟨h, by rw [List.getElem?_append_left (List.getElem?_eq_some_iff.1 h1).1]; exact h1, h2⟩
    · obtain ⟨h', j⟩ := c
      obtain ⟨rfl, _, a, ha, _⟩ := mem_registered.1 hc
      refine ⟨_, by simp; rfl, ?_⟩
      simp only [List.length_map]
      exact (List.getElem?_eq_some_iff.1 ha).1
  | define v f =>
    intro u c hc
    obtain ⟨h, h1, h2⟩ := hw u c hc
    obtain ⟨h', k1, _, k3, _⟩ := callbacks_run f (w.callbacks v) w.holders (hw v) c.1 h h1
    exact ⟨h', k1, by omega⟩

theorem Registered.after {w : World F} (hw : Registered w) (h : List (WOp F)) : Registered (w.after h) := by
  induction h generalizing w with
  | nil => exact hw
  | cons op h ih => exact ih (hw.step op)

theorem after_append' (w : World F) (a b : List (WOp F)) : w.after (a ++ b) = (w.after a).after b := by
  simp [World.after]

theorem holders_length (w : World F) (h : List (WOp F)) (hw : Registered w) :
    (w.after h).holders.length = w.holders.length + created h := by
  induction h generalizing w with
  | nil => rfl
  | cons op h ih =>
    rw [show w.after (op :: h) = (op.run w).after h from rfl, ih _ (hw.step op)]
    cases op with
    | create k args => simp [WOp.run, World.create, created]; omega
    | define u f =>
      have : ∀ (cs : List (Nat × Nat)) (hs : List (Holder F)),
          (cs.foldl (fun hs c => hs.modify c.1 (·.set c.2 f)) hs).length = hs.length := by
        intro cs
        induction cs with
        | nil => intro hs; rfl
        | cons c cs ih => intro hs; rw [List.foldl_cons, ih]; simp
      simp [WOp.run, World.define, created, this]

theorem field_after (w : World F) (h : List (WOp F)) (u : Nat) :
    (w.after h).field u = (lastDefine u h).or (w.field u) := by
  induction h generalizing w with
  | nil => simp [World.after, lastDefine]
  | cons op h ih =>
    rw [show w.after (op :: h) = (op.run w).after h from rfl, ih]
    have := lastDefine_append u [op] h
    rw [List.singleton_append] at this
    rw [this]
    cases op with
    | create k args => simp [WOp.run, World.create, lastDefine]
    | define v f =>
      simp only [WOp.run, World.define]
      by_cases hv : u = v
      · subst hv
        cases hl : lastDefine u h <;> simp [lastDefine]
      · cases hl : lastDefine u h <;> simp [lastDefine, hv, Ne.symm hv]

/-- How a position evolves: it changes exactly when a placeholder is defined it is registered with. -/
theorem evolve (w : World F) (hw : Registered w) (n i : Nat) (h : Holder F) (hn : w.holders[n]? = some h)
    (hi : i < h.content.length) (b : List (WOp F)) :
    ∃ h', (w.after b).holders[n]? = some h' ∧ h'.kind = h.kind ∧ h'.content.length = h.content.length ∧
      (∀ u, (n, i) ∈ (w.after b).callbacks u ↔ (n, i) ∈ w.callbacks u) := by
  induction b generalizing w h with
  | nil => exact ⟨h, hn, rfl, rfl, fun u => Iff.rfl⟩
  | cons op b ih =>
    have step : ∃ g, (op.run w).holders[n]? = some g ∧ g.kind = h.kind ∧ g.content.length = h.content.length ∧
        ∀ u, (n, i) ∈ (op.run w).callbacks u ↔ (n, i) ∈ w.callbacks u := by
      cases op with
      | create k args =>
        have hlt := (List.getElem?_eq_some_iff.1 hn).1
        refine ⟨h, ?_, rfl, rfl, fun u => ?_⟩
        · simp only [WOp.run, World.create]; rw [List.getElem?_append_left hlt]; exact hn
        · simp only [WOp.run, World.create, List.mem_append]
          constructor
          · rintro (h | h)
            · exact h
            · have := (mem_registered.1 h).1; omega
          · exact .inl
      | define v f =>
        obtain ⟨g, g1, g2, g3, _⟩ := callbacks_run f (w.callbacks v) w.holders (hw v) n h hn
        exact ⟨g, g1, g2, g3, fun u => Iff.rfl⟩
    obtain ⟨g, g1, g2, g3, g4⟩ := step
    obtain ⟨h', k1, k2, k3, k4⟩ := ih (op.run w) (hw.step op) g g1 (by omega)
    exact ⟨h', k1, k2.trans g2, k3.trans g3, fun u => (k4 u).trans (g4 u)⟩

@[elab_as_elim] theorem snocInd {α : Type} {P : List α → Prop} (l : List α) (nil : P [])
    (snoc : ∀ b x, P b → P (b ++ [x])) : P l := by
  have : ∀ l : List α, P l.reverse := by
    intro l
    induction l with
    | nil => exact nil
    | cons x l ih => rw [List.reverse_cons]; exact snoc _ _ ih
  simpa using this l.reverse

/-- C28: whatever happens before (`a`) and after (`b`) the creation of a holder with a placeholder at position `i`:
if the placeholder had a field at that time, the holder keeps that field for ever; otherwise it has the field of the
last `define` since (a structure: a clone of it named by the key), or none if there was none. -/
theorem C28_placeholder (field : Nat → Option F) (a b : List (WOp F)) (k : Kind) (args : List (HArg F)) (i u : Nat)
    (hi : args[i]? = some (.undef u)) :
    ((World.start field).after (a ++ .create k args :: b)).at (created a) i = some
      (match (lastDefine u a).or (field u) with
       | some f => .field f
       | none => match lastDefine u b with
         | some f => later k i f
         | none => .pending) := by
  have h0 : Registered (World.start field) := by intro u c hc; cases hc
  have ha := h0.after a
  rw [after_append']
  generalize hwa : (World.start field).after a = w at *
  have hlen : w.holders.length = created a := by
    rw [← hwa, holders_length _ _ h0]; simp [World.start]
  have hfield : w.field u = (lastDefine u a).or (field u) := by
    rw [← hwa, field_after]; rfl
  rw [← hfield]
  show ((w.create k args).after b).at (created a) i = _
  have hlt : i < args.length := (List.getElem?_eq_some_iff.1 hi).1
  have hn : (w.create k args).holders[created a]? = some ⟨k, args.map w.initial⟩ := by
    simp [World.create, ← hlen]
  have hreg : ∀ v, (created a, i) ∈ (w.create k args).callbacks v ↔ v = u ∧ w.field u = none := by
    intro v
    simp only [World.create, List.mem_append, mem_registered, ← hlen, Nat.zero_le, true_and, Nat.sub_zero, hi,
      Option.some.injEq, exists_eq_left', World.registers, Bool.and_eq_true, beq_iff_eq, Option.isNone_iff_eq_none]
    constructor
    · rintro (h | ⟨h1, h2⟩)
      · obtain ⟨g, hg, _⟩ := ha v _ h
        have := (List.getElem?_eq_some_iff.1 hg).1
        exact absurd this (Nat.lt_irrefl _)
      · subst h1; exact ⟨rfl, h2⟩
    · rintro ⟨h1, h2⟩
      subst h1; exact .inr ⟨rfl, h2⟩
  have hw : Registered (w.create k args) := ha.step (.create k args)
  have hcontent : (args.map w.initial)[i]? = some (match w.field u with | some f => .field f | none => .pending) := by
    rw [List.getElem?_map, hi]; rfl
  -- the content along `b`
  have key : ∀ (b : List (WOp F)) (x : World F) (g : Holder F), Registered x → x.holders[created a]? = some g → g.kind = k →
      i < g.content.length → (∀ v, (created a, i) ∈ x.callbacks v ↔ v = u ∧ w.field u = none) →
      (x.after b).at (created a) i = match w.field u, lastDefine u b with
        | none, some f => some (later k i f)
        | _, _ => g.content[i]? := by
    intro b
    induction b using snocInd with
    | nil => intro x g _ hg _ _ _; simp [World.after, World.at, hg, lastDefine]
    | snoc b op ih =>
      intro x g hx hg hgk hgi hc
      have ih := ih x g hx hg hgk hgi hc
      rw [after_append', lastDefine_append]
      obtain ⟨y, hy, hyk, hyl, hyc⟩ := evolve x hx (created a) i g hg hgi b
      have hxb := hx.after b
      generalize x.after b = z at *
      rw [show z.after [op] = op.run z from rfl]
      cases op with
      | create k' args' =>
        have hlt := (List.getElem?_eq_some_iff.1 hy).1
        have : (z.create k' args').at (created a) i = z.at (created a) i := by
          simp only [World.at, World.create]; rw [List.getElem?_append_left hlt]
        rw [show (WOp.create k' args').run z = z.create k' args' from rfl, this, ih]
        simp [lastDefine]
      | define v f =>
        obtain ⟨g', g1, g2, g3, g4⟩ := callbacks_run f (z.callbacks v) z.holders (hxb v) (created a) y hy
        have hat : ((WOp.define v f).run z).at (created a) i = g'.content[i]? := by
          simp only [World.at, WOp.run, World.define]; rw [g1]; rfl
        have hz : z.at (created a) i = y.content[i]? := by simp [World.at, hy]
        rw [hat, g4 i (by omega), hyk, hgk, ← hz, ih]
        have hm : (created a, i) ∈ z.callbacks v ↔ v = u ∧ w.field u = none := (hyc v).trans (hc v)
        by_cases hv : v = u
        · subst hv
          cases hf : w.field v with
          | none => simp [hm, hf, lastDefine]
          | some f' => simp [hm, hf]
        · simp [hm, hv, lastDefine]
  rw [key b _ _ hw hn rfl (by simpa using hlt) hreg]
  rw [hcontent]
  cases w.field u <;> cases lastDefine u b <;> rfl

end

namespace Ex

/-- A sequence created before two defines uses the second, one created in between keeps the first. -/
example : ((World.start (F := Nat) fun _ => none).after
      [.create .positional [.undef 0], .define 0 7, .create .positional [.undef 0], .define 0 8]).at 0 0 =
    some (.field 8) :=
  C28_placeholder (fun _ => none) [] [.define 0 7, .create .positional [.undef 0], .define 0 8] .positional [.undef 0] 0 0 rfl

example : ((World.start (F := Nat) fun _ => none).after
      [.create .positional [.undef 0], .define 0 7, .create .positional [.undef 0], .define 0 8]).at 1 0 =
    some (.field 7) :=
  C28_placeholder (fun _ => none) [.create .positional [.undef 0], .define 0 7] [.define 0 8] .positional [.undef 0] 0 0 rfl

end Ex

end Scheme
