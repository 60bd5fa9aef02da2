import Verif.Model.Edit
import Verif.Props.Instantiate
import Verif.Props.Clone

/-! C36, C37: editing structures and generating defaults. -/

namespace Scheme

section
variable {α : Type}

theorem lookup_keySet {k k' : Str} {v : α} {l : List (Str × α)} :
    (keySet k v l).lookup k' = if k' = k then some v else l.lookup k' := by
  induction l with
  | nil =>
    by_cases h : k' = k
    · subst h; simp [keySet]
    · have : (k' == k) = false := by simpa using h
      simp [keySet, List.lookup_cons, this, h]
  | cons e r ih =>
    obtain ⟨a, b⟩ := e
    unfold keySet
    by_cases ha : a = k
    · subst ha
      simp only [if_true, List.lookup_cons]
      by_cases h : k' = a
      · subst h; simp
      · have : (k' == a) = false := by simpa using h
        simp [this, h]
    · simp only [ha, if_false, List.lookup_cons, ih]
      by_cases h : k' = a
      · subst h; simp [ha]
      · have : (k' == a) = false := by simpa using h
        simp [this]

theorem lookup_isSome {k : Str} {l : List (Str × α)} : (l.lookup k).isSome = true ↔ k ∈ l.map (·.1) := by
  induction l with
  | nil => simp
  | cons e r ih =>
    obtain ⟨a, b⟩ := e
    rw [List.lookup_cons, List.map_cons, List.mem_cons, ← ih]
    by_cases h : k = a
    · subst h; simp
    · have : (k == a) = false := by simpa using h
      simp [this, h]

theorem keys_keySet {k : Str} {v : α} {l : List (Str × α)} :
    (keySet k v l).map (·.1) = if k ∈ l.map (·.1) then l.map (·.1) else l.map (·.1) ++ [k] := by
  induction l with
  | nil => simp [keySet]
  | cons e r ih =>
    obtain ⟨a, b⟩ := e
    unfold keySet
    by_cases ha : a = k
    · subst ha; simp
    · have ha' : ¬ k = a := fun h => ha h.symm
      simp only [ha, if_false, List.map_cons, ih, List.mem_cons, ha', false_or]
      by_cases hm : k ∈ r.map (·.1)
      · simp only [hm, if_true]
      · simp only [hm, if_false, List.cons_append]

end

/-! ### insert and remove -/

/-- C36. `insert` needs a field with a name; it stores the field under its name unless the name is taken and
`overwrite` is not set; every other key keeps its field. -/
theorem C36_insert (defn : List (Str × Field)) (f : Field) (overwrite : Bool) (d' : List (Str × Field)) :
    insertField defn (some f) overwrite = .ok d' ↔
      ∃ name, f.name = some name ∧ name ≠ [] ∧
        d' = if overwrite = true ∨ name ∉ defn.map (·.1) then keySet name f defn else defn := by
  cases h : f.name with
  | none => simp [insertField, h]
  | some name =>
    cases name with
    | nil => simp [insertField, h]
    | cons a s =>
      have hi : (defn.lookup (a :: s)).isNone = true ↔ (a :: s) ∉ defn.map (·.1) := by
        rw [← lookup_isSome]
        cases defn.lookup (a :: s) <;> simp
      simp only [Option.some.injEq, exists_eq_left', ne_eq, reduceCtorEq, not_false_eq_true, true_and]
      have hb : (overwrite || (defn.lookup (a :: s)).isNone) = true ↔ overwrite = true ∨ (a :: s) ∉ defn.map (·.1) := by
        rw [Bool.or_eq_true, hi]
      simp only [insertField, h]
      by_cases hc : overwrite = true ∨ (a :: s) ∉ defn.map (·.1)
      · rw [if_pos hc, if_pos (hb.2 hc)]
        simp only [Except.ok.injEq, eq_comm]
      · rw [if_neg hc, if_neg (fun x => hc (hb.1 x))]
        simp only [Except.ok.injEq, eq_comm]

/-- C36. What the mapping is after storing: the key holds the field, other keys are as before, and the order of the
keys is kept, a new key coming last. -/
theorem C36_stored (defn : List (Str × Field)) (name : Str) (f : Field) :
    (∀ k, (keySet name f defn).lookup k = if k = name then some f else defn.lookup k) ∧
    (keySet name f defn).map (·.1) = if name ∈ defn.map (·.1) then defn.map (·.1) else defn.map (·.1) ++ [name] :=
  ⟨fun _ => lookup_keySet, keys_keySet⟩

/-- C36. Failures of `insert`. -/
theorem C36_insert_errors (defn : List (Str × Field)) (overwrite : Bool) :
    insertField defn none overwrite = .error .typeError ∧
    ∀ f, (f.name = none ∨ f.name = some []) → insertField defn (some f) overwrite = .error .valueError := by
  refine ⟨rfl, fun f h => ?_⟩
  rcases h with h | h <;> simp [insertField, h]

/-- C36. `remove` removes exactly the named members. -/
theorem C36_remove (defn : List (Str × Field)) (names : List Str) :
    removeNames defn names = defn.filter fun e => !names.contains e.1 := by
  induction names generalizing defn with
  | nil => simp [removeNames]
  | cons name r ih =>
    have hs : (if (defn.lookup name).isSome then defn.filter (fun e => e.1 != name) else defn) = defn.filter (fun e => e.1 != name) := by
      split
      · rfl
      · rename_i h
        rw [lookup_isSome] at h
        refine (List.filter_eq_self.2 fun e he => ?_).symm
        simp only [bne_iff_ne, ne_eq]
        intro hn
        exact h (List.mem_map.2 ⟨e, he, hn⟩)
    rw [removeNames, hs, ih, List.filter_filter]
    congr 1
    funext e
    rw [List.contains_cons, Bool.not_or, Bool.and_comm]
    rfl

/-! ### merge -/

/-- The field that `merge` stores for an entry: the field itself if it has that name already, else a renamed copy. -/
def Merged (env : Env) (n : Nat) (name : Str) (f g : Field) : Prop :=
  (f.name = some name ∧ g = f) ∨ (f.name ≠ some name ∧ ∃ g', clone env n f = .ok g' ∧ g = rename name g')

/-- C36. `merge(structure, prefer=True)`, when it raises nothing: every key of the argument holds the (renamed) field
given, every other key is as before. -/
theorem C36_merge_prefer (env : Env) (n : Nat) (defn d' : List (Str × Field)) (extra : List (Str × FieldArg))
    (hnd : (extra.map (·.1)).Nodup) (h : mergeLoop env n true defn extra = (d', none)) (k : Str) :
    (k ∉ extra.map (·.1) → d'.lookup k = defn.lookup k) ∧
    (k ∈ extra.map (·.1) → ∃ f g, (k, some f) ∈ extra ∧ Merged env n k f g ∧ d'.lookup k = some g) := by
  induction extra generalizing defn with
  | nil => simp only [mergeLoop, Prod.mk.injEq, and_true] at h; subst h; simp
  | cons e r ih =>
    obtain ⟨name, f⟩ := e
    rw [List.map_cons, List.nodup_cons] at hnd
    cases f with
    | none => simp [mergeLoop] at h
    | some f =>
      have hstep : ∃ g, Merged env n name f g ∧ mergeLoop env n true (keySet name g defn) r = (d', none) := by
        simp only [mergeLoop, Bool.not_true, Bool.and_false, Bool.false_eq_true, if_false] at h
        split at h
        · rename_i hn; exact ⟨f, .inl ⟨hn, rfl⟩, h⟩
        · rename_i hn
          split at h
          · cases h
          · rename_i g hg; exact ⟨_, .inr ⟨hn, g, hg, rfl⟩, h⟩
      obtain ⟨g, hm, h⟩ := hstep
      obtain ⟨h1, h2⟩ := ih _ hnd.2 h
      constructor
      · intro hk
        simp only [List.map_cons, List.mem_cons, not_or] at hk
        rw [h1 hk.2, lookup_keySet, if_neg hk.1]
      · intro hk
        by_cases hkr : k ∈ r.map (·.1)
        · obtain ⟨f', g', a, b⟩ := h2 hkr
          exact ⟨f', g', List.mem_cons_of_mem _ a, b⟩
        · have : k = name := by simpa [hkr] using hk
          subst this
          exact ⟨f, g, List.mem_cons_self .., hm, by rw [h1 hkr, lookup_keySet, if_pos rfl]⟩

/-- C36. `merge(structure)` without `prefer`, when it raises nothing: there is a first part of the argument whose keys
were all new, and exactly that part is merged; it ends at the first key already present.  The documentation says
that present keys are skipped and all others merged. -/
theorem C36_merge_until (env : Env) (n : Nat) (defn d' : List (Str × Field)) (extra : List (Str × FieldArg))
    (hnd : (extra.map (·.1)).Nodup) (h : mergeLoop env n false defn extra = (d', none)) :
    ∃ done rest, extra = done ++ rest ∧ (∀ e ∈ done, e.1 ∉ defn.map (·.1)) ∧
      (∀ e r, rest = e :: r → e.1 ∈ defn.map (·.1)) ∧
      ∀ k, (k ∉ done.map (·.1) → d'.lookup k = defn.lookup k) ∧
        (k ∈ done.map (·.1) → ∃ f g, (k, some f) ∈ done ∧ Merged env n k f g ∧ d'.lookup k = some g) := by
  have key : ∀ (added : List Str) (d0 : List (Str × Field)), (∀ a ∈ added, a ∉ extra.map (·.1)) →
      (∀ k, k ∈ d0.map (·.1) ↔ k ∈ defn.map (·.1) ∨ k ∈ added) → mergeLoop env n false d0 extra = (d', none) →
      ∃ done rest, extra = done ++ rest ∧ (∀ e ∈ done, e.1 ∉ defn.map (·.1)) ∧
      (∀ e r, rest = e :: r → e.1 ∈ defn.map (·.1)) ∧
      ∀ k, (k ∉ done.map (·.1) → d'.lookup k = d0.lookup k) ∧
        (k ∈ done.map (·.1) → ∃ f g, (k, some f) ∈ done ∧ Merged env n k f g ∧ d'.lookup k = some g) := by
    clear h
    induction extra with
    | nil =>
      intro added d0 _ _ h
      simp only [mergeLoop, Prod.mk.injEq, and_true] at h; subst h
      exact ⟨[], [], rfl, by simp, by simp, by simp⟩
    | cons e r ih =>
      intro added d0 ha hd0 h
      obtain ⟨name, f⟩ := e
      rw [List.map_cons, List.nodup_cons] at hnd
      cases f with
      | none => simp [mergeLoop] at h
      | some f =>
        by_cases hin : name ∈ d0.map (·.1)
        · have hl := lookup_isSome.2 hin
          simp only [mergeLoop, hl, Bool.not_false, Bool.and_true, if_true, Prod.mk.injEq, and_true] at h
          subst h
          refine ⟨[], (name, some f) :: r, rfl, by simp, fun e r' he => ?_, by simp⟩
          cases he
          rcases (hd0 name).1 hin with h | h
          · exact h
          · exact absurd (by simp) (ha name h)
        · have hl : (d0.lookup name).isSome = false := by
            cases hc : (d0.lookup name).isSome with
            | false => rfl
            | true => exact absurd (lookup_isSome.1 hc) hin
          have hstep : ∃ g, Merged env n name f g ∧ mergeLoop env n false (keySet name g d0) r = (d', none) := by
            simp only [mergeLoop, hl, Bool.false_and, Bool.false_eq_true, if_false] at h
            split at h
            · rename_i hn; exact ⟨f, .inl ⟨hn, rfl⟩, h⟩
            · rename_i hn
              split at h
              · cases h
              · rename_i g hg; exact ⟨_, .inr ⟨hn, g, hg, rfl⟩, h⟩
          obtain ⟨g, hm, h⟩ := hstep
          obtain ⟨done, rest, rfl, h1, h2, h3⟩ := ih hnd.2 (name :: added) (keySet name g d0)
            (by
              intro a ha'
              rcases List.mem_cons.1 ha' with rfl | ha'
              · exact hnd.1
              · exact fun hh => ha a ha' (List.mem_cons_of_mem _ hh))
            (by
              intro k
              rw [keys_keySet, if_neg hin, List.mem_append, hd0, List.mem_singleton, List.mem_cons, or_assoc]
              constructor
              · rintro (h | h | h)
                · exact .inl h
                · exact .inr (.inr h)
                · exact .inr (.inl h)
              · rintro (h | h | h)
                · exact .inl h
                · exact .inr (.inr h)
                · exact .inr (.inl h)) h
          refine ⟨(name, some f) :: done, rest, rfl, ?_, h2, fun k => ⟨?_, ?_⟩⟩
          · intro e he
            rcases List.mem_cons.1 he with rfl | he
            · exact fun hh => hin ((hd0 name).2 (.inl hh))
            · exact h1 e he
          · intro hk
            simp only [List.map_cons, List.mem_cons, not_or] at hk
            rw [(h3 k).1 hk.2, lookup_keySet, if_neg hk.1]
          · intro hk
            by_cases hkr : k ∈ done.map (·.1)
            · obtain ⟨f', g', a, b⟩ := (h3 k).2 hkr
              exact ⟨f', g', List.mem_cons_of_mem _ a, b⟩
            · have : k = name := by simpa [hkr] using hk
              subst this
              exact ⟨f, g, List.mem_cons_self .., hm, by rw [(h3 k).1 hkr, lookup_keySet, if_pos rfl]⟩
  exact key [] defn (by simp) (by simp) h

/-- C36. The documented behaviour of `merge` fails: the new key 'b' is lost because 'a' comes first. -/
theorem C36_merge_stops (env : Env) (n : Nat) :
    let a : Field := .leaf { name := some c!"a" } (.integer none none)
    let b : Field := .leaf { name := some c!"b" } (.integer none none)
    mergeLoop env n false [(c!"a", a)] [(c!"a", some a), (c!"b", some b)] = ([(c!"a", a)], none) := rfl

/-! ### extend and replace -/

theorem clone_structure_ok {env : Env} {n : Nat} {c : Common} {defn : List (Str × Field)} {s : Bool} {ko : List Str} {g : Field}
    (h : clone env n (.structure c defn s ko) = .ok g) :
    ∃ m defn', n = m + 1 ∧ cloneDefn env (clone env m) defn = .ok defn' ∧ g = .structure c defn' s ko := by
  cases n with
  | zero => cases h
  | succ m =>
    simp only [clone, cloneStep, except_bind_eq_ok, initErrors_ok] at h
    obtain ⟨d, hd, rfl, -⟩ := h
    exact ⟨m, d, rfl, hd, rfl⟩

theorem extendLoop_ok {defn d' : List (Str × Field)} {extra : List (Str × FieldArg)} (hnd : (extra.map (·.1)).Nodup)
    (h : extendLoop defn extra = .ok d') (k : Str) :
    (k ∉ extra.map (·.1) → d'.lookup k = defn.lookup k) ∧
    ∀ f, (k, some f) ∈ extra → d'.lookup k = some (rename k f) := by
  induction extra generalizing defn with
  | nil => simp only [extendLoop, Except.ok.injEq] at h; subst h; simp
  | cons e r ih =>
    obtain ⟨name, f⟩ := e
    rw [List.map_cons, List.nodup_cons] at hnd
    cases f with
    | none => simp [extendLoop] at h
    | some f =>
      obtain ⟨h1, h2⟩ := ih hnd.2 h
      constructor
      · intro hk
        simp only [List.map_cons, List.mem_cons, not_or] at hk
        rw [h1 hk.2, lookup_keySet, if_neg hk.1]
      · intro f' hf'
        rcases List.mem_cons.1 hf' with hf' | hf'
        · cases hf'
          rw [h1 hnd.1, lookup_keySet, if_pos rfl]
        · exact h2 f' hf'

/-- C36. `extend` returns a structure in which every key of the argument holds the given field, renamed to the key, and
every other key a copy of its field, which behaves the same. -/
theorem C36_extend (env : Env) (n : Nat) (c : Common) (defn : List (Str × Field)) (s : Bool) (ko : List Str)
    (extra : List (Str × FieldArg)) (g : Field) (hnd : (extra.map (·.1)).Nodup)
    (hb : Everywhere env (Built env) (.structure c defn s ko)) (h : extendStructure env n c defn s ko extra = .ok g) :
    ∃ d', g = .structure c d' s ko ∧ ∀ k,
      (∀ f, (k, some f) ∈ extra → d'.lookup k = some (rename k f)) ∧
      (k ∉ extra.map (·.1) → (defn.lookup k = none ∧ d'.lookup k = none) ∨
        ∃ f f', defn.lookup k = some f ∧ d'.lookup k = some f' ∧ SameChild env f f') := by
  simp only [extendStructure, except_bind_eq_ok] at h
  obtain ⟨g0, hg0, h⟩ := h
  obtain ⟨m, d0, rfl, hd0, rfl⟩ := clone_structure_ok hg0
  obtain ⟨d', hd', rfl⟩ := except_map_eq_ok.1 h
  have hs := cloneDefn_same hd0 hb.here (fun e he g hg => clone_same_all env m g (hb.child (.member he hg)))
  refine ⟨d', rfl, fun k => ⟨(extendLoop_ok hnd hd' k).2, fun hk => ?_⟩⟩
  rw [(extendLoop_ok hnd hd' k).1 hk]
  exact hs.lookup k

theorem replaceLoop_ok {defn d' : List (Str × Field)} {repl : List (Str × FieldArg)} (hnd : (repl.map (·.1)).Nodup)
    (h : replaceLoop defn repl = .ok d') (k : Str) :
    (k ∉ repl.map (·.1) → d'.lookup k = defn.lookup k) ∧
    (∀ f, (k, some f) ∈ repl → d'.lookup k = if k ∈ defn.map (·.1) then some (rename k f) else none) ∧
    d'.map (·.1) = defn.map (·.1) := by
  induction repl generalizing defn with
  | nil => simp only [replaceLoop, Except.ok.injEq] at h; subst h; simp
  | cons e r ih =>
    obtain ⟨name, f⟩ := e
    rw [List.map_cons, List.nodup_cons] at hnd
    cases f with
    | none => simp [replaceLoop] at h
    | some f =>
      obtain ⟨h1, h2, h3⟩ := ih hnd.2 h
      have hkeys : (if (defn.lookup name).isSome = true then keySet name (rename name f) defn else defn).map (·.1) = defn.map (·.1) := by
        split
        · rename_i hs; rw [keys_keySet, if_pos (lookup_isSome.1 hs)]
        · rfl
      refine ⟨?_, ?_, h3.trans hkeys⟩
      · intro hk
        simp only [List.map_cons, List.mem_cons, not_or] at hk
        rw [h1 hk.2]
        split
        · rw [lookup_keySet, if_neg hk.1]
        · rfl
      · intro f' hf'
        rcases List.mem_cons.1 hf' with hf' | hf'
        · cases hf'
          rw [h1 hnd.1]
          split
          · rename_i hs
            rw [lookup_keySet, if_pos rfl, if_pos (lookup_isSome.1 hs)]
          · rename_i hs
            have hn : ¬ k ∈ defn.map (·.1) := fun hm => hs (lookup_isSome.2 hm)
            rw [if_neg hn]
            cases hl : defn.lookup k with
            | none => rfl
            | some v => rw [hl] at hs; exact absurd rfl hs
        · rw [h2 f' hf', hkeys]

/-- C36. `replace` returns the structure itself when the argument has no key of it; otherwise a structure with the same
keys in the same order, in which every key of the argument holds the given field, renamed to the key, and every other
key a copy of its field, which behaves the same. -/
theorem C36_replace (env : Env) (n : Nat) (c : Common) (defn : List (Str × Field)) (s : Bool) (ko : List Str)
    (repl : List (Str × FieldArg)) (x : Option Field) (hnd : (repl.map (·.1)).Nodup)
    (hb : Everywhere env (Built env) (.structure c defn s ko)) (h : replaceStructure env n c defn s ko repl = .ok x) :
    (x = none ∧ ∀ e ∈ repl, e.1 ∉ defn.map (·.1)) ∨
    (∃ e ∈ repl, e.1 ∈ defn.map (·.1)) ∧ ∃ d', x = some (.structure c d' s ko) ∧ d'.map (·.1) = defn.map (·.1) ∧ ∀ k,
      (∀ f, (k, some f) ∈ repl → k ∈ defn.map (·.1) → d'.lookup k = some (rename k f)) ∧
      (k ∉ repl.map (·.1) → (defn.lookup k = none ∧ d'.lookup k = none) ∨
        ∃ f f', defn.lookup k = some f ∧ d'.lookup k = some f' ∧ SameChild env f f') := by
  unfold replaceStructure at h
  split at h
  · rename_i hany
    simp only [except_bind_eq_ok] at h
    obtain ⟨g0, hg0, h⟩ := h
    obtain ⟨m, d0, rfl, hd0, rfl⟩ := clone_structure_ok hg0
    obtain ⟨d', hd', rfl⟩ := except_map_eq_ok.1 h
    have hs := cloneDefn_same hd0 hb.here (fun e he g hg => clone_same_all env m g (hb.child (.member he hg)))
    have hkeys : d0.map (·.1) = defn.map (·.1) := hs.keys.symm
    obtain ⟨e, he, hl⟩ := List.any_eq_true.1 hany
    refine .inr ⟨⟨e, he, lookup_isSome.1 hl⟩, d', rfl, ((replaceLoop_ok hnd hd' []).2.2).trans hkeys, fun k => ⟨?_, fun hk => ?_⟩⟩
    · intro f hf hk
      rw [(replaceLoop_ok hnd hd' k).2.1 f hf, if_pos (by rw [hkeys]; exact hk)]
    · rw [(replaceLoop_ok hnd hd' k).1 hk]
      exact hs.lookup k
  · rename_i hany
    cases h
    refine .inl ⟨rfl, fun e he hm => hany (List.any_eq_true.2 ⟨e, he, lookup_isSome.2 hm⟩)⟩

/-! ### generate_defaults -/

theorem generateValues_ok {env : Env} {sparse : Bool} {defn : List (Str × Field)} {d : List (Val × Val)}
    (h : generateValues env sparse defn = .ok d) :
    (d.map (·.1)).Sublist (defn.map fun e => Val.str e.1) ∧
    ∀ name v, (Val.str name, v) ∈ d ↔ ∃ f g c, (name, f) ∈ defn ∧ resolve env f = some g ∧ g.common? = some c ∧
      ((c.default ≠ .none ∧ v = c.default) ∨ (c.default = .none ∧ v = c.constant)) ∧ (sparse = true → v ≠ .none) := by
  induction defn generalizing d with
  | nil => simp only [generateValues, Except.ok.injEq] at h; subst h; simp
  | cons e r ih =>
    obtain ⟨nm, f⟩ := e
    simp only [generateValues, except_bind_eq_ok, except_pure, Except.ok.injEq] at h
    obtain ⟨v0, hv0, r', hr', rfl⟩ := h
    obtain ⟨h1, h2⟩ := ih hr'
    obtain ⟨g0, c0, hg0, hc0, hv⟩ : ∃ g c, resolve env f = some g ∧ g.common? = some c ∧
        ((c.default ≠ .none ∧ v0 = c.default) ∨ (c.default = .none ∧ v0 = c.constant)) := by
      unfold defaultOf at hv0
      split at hv0
      · cases hv0
      · rename_i c hc
        obtain ⟨g, hg, hc⟩ := Option.bind_eq_some_iff.1 hc
        refine ⟨g, c, hg, hc, ?_⟩
        cases hv0
        cases hd : c.default <;> simp [Val.isNone]
    have hiff : ∀ v, (∃ g c, resolve env f = some g ∧ g.common? = some c ∧
        ((c.default ≠ .none ∧ v = c.default) ∨ (c.default = .none ∧ v = c.constant))) ↔ v = v0 := by
      intro v
      constructor
      · rintro ⟨g, c, hg, hc, h⟩
        rw [hg0] at hg; cases hg
        rw [hc0] at hc; cases hc
        rcases h with ⟨a, rfl⟩ | ⟨a, rfl⟩ <;> rcases hv with ⟨b, rfl⟩ | ⟨b, rfl⟩
        · rfl
        · exact absurd b a
        · exact absurd a b
        · rfl
      · rintro rfl; exact ⟨g0, c0, hg0, hc0, hv⟩
    have hnone : v0.isNone = true ↔ v0 = .none := by cases v0 <;> simp [Val.isNone]
    by_cases hk : (!sparse || !v0.isNone) = true
    · rw [if_pos hk]
      refine ⟨h1.cons_cons _, fun name v => ?_⟩
      simp only [List.mem_cons, h2, Prod.mk.injEq, Val.str.injEq]
      constructor
      · rintro (⟨rfl, rfl⟩ | ⟨f', g, c, a, b⟩)
        · refine ⟨f, g0, c0, .inl ⟨rfl, rfl⟩, hg0, hc0, hv, fun hs hn => ?_⟩
          rw [hs, hnone.2 hn] at hk; cases hk
        · exact ⟨f', g, c, .inr a, b⟩
      · rintro ⟨f', g, c, ⟨rfl, rfl⟩ | a, b1, b2, b3, b4⟩
        · exact .inl ⟨rfl, (hiff v).1 ⟨g, c, b1, b2, b3⟩⟩
        · exact .inr ⟨f', g, c, a, b1, b2, b3, b4⟩
    · rw [if_neg hk]
      refine ⟨h1.cons _, fun name v => ?_⟩
      rw [h2]
      constructor
      · rintro ⟨f', g, c, a, b⟩; exact ⟨f', g, c, List.mem_cons_of_mem _ a, b⟩
      · rintro ⟨f', g, c, a, b1, b2, b3, b4⟩
        rcases List.mem_cons.1 a with a | a
        · cases a
          have hvv := (hiff v).1 ⟨g, c, b1, b2, b3⟩
          subst hvv
          cases hsp : sparse with
          | false => simp [hsp] at hk
          | true =>
            exfalso
            apply b4 hsp
            rw [← hnone]
            cases hn : v.isNone with
            | true => rfl
            | false => simp [hn] at hk
        · exact ⟨f', g, c, a, b1, b2, b3, b4⟩

theorem generateValues_total {env : Env} {sparse : Bool} {defn : List (Str × Field)} :
    (∃ d, generateValues env sparse defn = .ok d) ↔ ∀ e ∈ defn, ∃ g c, resolve env e.2 = some g ∧ g.common? = some c := by
  have hd : ∀ f, (∃ v, defaultOf env f = .ok v) ↔ ∃ g c, resolve env f = some g ∧ g.common? = some c := by
    intro f
    unfold defaultOf
    constructor
    · rintro ⟨v, h⟩
      split at h
      · cases h
      · rename_i c hc
        obtain ⟨g, hg, hc⟩ := Option.bind_eq_some_iff.1 hc
        exact ⟨g, c, hg, hc⟩
    · rintro ⟨g, c, hg, hc⟩
      simp [hg, hc]
  induction defn with
  | nil => simp [generateValues]
  | cons e r ih =>
    obtain ⟨nm, f⟩ := e
    rw [List.forall_mem_cons, ← hd]
    refine Iff.trans ?_ (and_congr Iff.rfl ih)
    simp only [generateValues, except_bind_eq_ok, except_pure, Except.ok.injEq]
    constructor
    · rintro ⟨d, v, hv, r', hr', -⟩; exact ⟨⟨v, hv⟩, r', hr'⟩
    · rintro ⟨⟨v, hv⟩, r', hr'⟩; exact ⟨_, v, hv, r', hr', rfl⟩

/-- C37. `generate_defaults(sparse=sparse)` of a plain structure holds, in the order of declaration, for each declared
key its field's default, or the constant if there is no default; `sparse` leaves out those that are None. -/
theorem C37_defaults (env : Env) (c : Common) (defn : List (Str × Field)) (s : Bool) (ko : List Str) (sparse : Bool) (w : Val)
    (h : generateDefaults env (.structure c defn s ko) .none sparse = .ok w) :
    ∃ d, w = .dict d ∧ (d.map (·.1)).Sublist (defn.map fun e => Val.str e.1) ∧
      ∀ name v, (Val.str name, v) ∈ d ↔ ∃ f g c, (name, f) ∈ defn ∧ resolve env f = some g ∧ g.common? = some c ∧
        ((c.default ≠ .none ∧ v = c.default) ∨ (c.default = .none ∧ v = c.constant)) ∧ (sparse = true → v ≠ .none) := by
  simp only [generateDefaults, Val.isNone, if_true, except_map_eq_ok] at h
  obtain ⟨d, hd, rfl⟩ := h
  exact ⟨d, rfl, generateValues_ok hd⟩

/-- C37. It succeeds exactly when all members have been defined; an identity is refused. -/
theorem C37_total (env : Env) (c : Common) (defn : List (Str × Field)) (s : Bool) (ko : List Str) (sparse : Bool) :
    ((∃ w, generateDefaults env (.structure c defn s ko) .none sparse = .ok w) ↔
      ∀ e ∈ defn, ∃ g c, resolve env e.2 = some g ∧ g.common? = some c) ∧
    ∀ id, id ≠ .none → generateDefaults env (.structure c defn s ko) id sparse = .error .valueError := by
  constructor
  · rw [← generateValues_total (sparse := sparse)]
    simp only [generateDefaults, Val.isNone, if_true, except_map_eq_ok]
    constructor
    · rintro ⟨w, d, hd, -⟩; exact ⟨d, hd⟩
    · rintro ⟨d, hd⟩; exact ⟨_, d, hd, rfl⟩
  · intro id hid
    have : id.isNone = false := by cases id <;> simp_all [Val.isNone]
    simp [generateDefaults, this]

/-- C37. A polymorphic structure generates one mapping per identity, each as for a plain structure with that variant's
members; asked for one identity, just that mapping. -/
theorem C37_poly (env : Env) (c : Common) (disc : Field) (vs : List (Val × List (Str × Field))) (s : Bool) (ko : List Str)
    (sparse : Bool) (w : Val) :
    generateDefaults env (.poly c disc vs s ko) .none sparse = .ok w ↔
      ∃ d, w = .dict d ∧ All2 (fun v e => e.1 = v.1 ∧ generateDefaults env (.structure c v.2 s ko) .none sparse = .ok e.2) vs d := by
  have hloop : ∀ d, generateVariants env sparse vs = .ok d ↔
      All2 (fun v e => e.1 = v.1 ∧ generateDefaults env (.structure c v.2 s ko) .none sparse = .ok e.2) vs d := by
    induction vs with
    | nil =>
      intro d
      simp only [generateVariants, Except.ok.injEq]
      constructor
      · rintro rfl; exact .nil
      · intro h; cases h; rfl
    | cons v r ih =>
      intro d
      obtain ⟨i, defn⟩ := v
      simp only [generateVariants, except_bind_eq_ok, except_pure, Except.ok.injEq]
      constructor
      · rintro ⟨x, hx, r', hr', rfl⟩
        exact .cons ⟨rfl, by simp [generateDefaults, Val.isNone, hx, Except.map]⟩ ((ih r').1 hr')
      · intro h
        cases h with
        | @cons a b _ m h1 h2 =>
          obtain ⟨h1, h3⟩ := h1
          simp only [generateDefaults, Val.isNone, if_true, except_map_eq_ok] at h3
          obtain ⟨x, hx, hb⟩ := h3
          refine ⟨x, hx, m, (ih m).2 h2, ?_⟩
          obtain ⟨b1, b2⟩ := b
          cases h1; cases hb; rfl
  simp only [generateDefaults, Val.isNone, if_true, except_map_eq_ok, hloop]
  constructor
  · rintro ⟨d, hd, rfl⟩; exact ⟨d, rfl, hd⟩
  · rintro ⟨d, rfl, hd⟩; exact ⟨d, hd, rfl⟩

/-- C37. The defaults for one identity. -/
theorem C37_identity (env : Env) (c : Common) (disc : Field) (vs : List (Val × List (Str × Field))) (s : Bool) (ko : List Str)
    (sparse : Bool) (id : Val) (hid : id ≠ .none) (hh : hashable id = true) :
    generateDefaults env (.poly c disc vs s ko) id sparse =
      match variantIn vs id with
      | some defn => generateDefaults env (.structure c defn s ko) .none sparse
      | none => .error .valueError := by
  have : id.isNone = false := by cases id <;> simp_all [Val.isNone]
  rw [variantIn_eq]
  simp only [generateDefaults, this, hh, Bool.false_eq_true, if_false, if_true, Val.isNone]
  cases variantGet vs id <;> rfl

example : generateDefaults Ex.env (.structure {} [(c!"a", .leaf { default := .int 1, constant := .int 2 } (.integer none none)),
    (c!"b", .leaf { constant := .int 2 } (.integer none none)), (c!"c", Ex.int)] true []) .none true =
    .ok (.dict [(.str c!"a", .int 1), (.str c!"b", .int 2)]) := rfl

example : mergeLoop Ex.env 3 true [(c!"a", .leaf { name := some c!"a" } (.integer none none))] [(c!"a", some Ex.text), (c!"b", some Ex.int)] =
    ([(c!"a", .leaf { name := some c!"a" } (.text none none none true)), (c!"b", .leaf { name := some c!"b" } (.integer none none))], none) := rfl

example : mergeLoop Ex.env 3 false [(c!"a", Ex.int)] [(c!"c", some Ex.int), (c!"a", some Ex.text), (c!"b", some Ex.int)] =
    ([(c!"a", Ex.int), (c!"c", .leaf { name := some c!"c" } (.integer none none))], none) := rfl

example : extendStructure Ex.env 3 {} [(c!"a", .leaf { name := some c!"a" } (.integer none none))] true [] [(c!"b", some Ex.int)] =
    .ok (.structure {} [(c!"a", .leaf { name := some c!"a" } (.integer none none)), (c!"b", .leaf { name := some c!"b" } (.integer none none))] true []) := rfl

example : replaceStructure Ex.env 3 {} [(c!"a", .leaf { name := some c!"a" } (.integer none none))] true [] [(c!"b", some Ex.int), (c!"a", some Ex.text)] =
    .ok (some (.structure {} [(c!"a", .leaf { name := some c!"a" } (.text none none none true))] true [])) := rfl

end Scheme
