import Verif.Spec.Extract
import Verif.Lemmas.Struct
import Verif.Lemmas.Fuel
import Verif.Lemmas.DictGet
import Verif.Props.Idempotence
import Verif.Props.Recursion

/-! C30: extraction. -/

namespace Scheme

theorem notExcluded_eq_some {x : Except Exn Val} {w : Val} : notExcluded x = .ok (some w) ↔ x = .ok w := by
  rcases x with e | v
  · cases e <;> simp [notExcluded]
  · simp [notExcluded]

theorem notExcluded_eq_none {x : Except Exn Val} : notExcluded x = .ok none ↔ x = .error .excluded := by
  rcases x with e | v
  · cases e <;> simp [notExcluded]
  · simp [notExcluded]

theorem applyExtractor_none {o : Outer} {f : Field} {v : Val} (h : NoExtractor f) (hf : ∀ s, f ≠ .undef s) :
    applyExtractor o f v = .ok v := by
  cases f with
  | undef s => exact absurd rfl (hf s)
  | union c fs => simp [applyExtractor, unionExtractor, h c rfl]
  | leaf c k => simp [applyExtractor, extractor, Field.common?, h c rfl]
  | sequence c i a b u => simp [applyExtractor, extractor, Field.common?, h c rfl]
  | map c i a b => simp [applyExtractor, extractor, Field.common?, h c rfl]
  | tuple c i => simp [applyExtractor, extractor, Field.common?, h c rfl]
  | «structure» c i a b => simp [applyExtractor, extractor, Field.common?, h c rfl]
  | poly c i a b u => simp [applyExtractor, extractor, Field.common?, h c rfl]

/-- An extraction that succeeds without an extractor: the subject is None, or the body is run on it. -/
theorem extract_succ_ok {env : Env} {o : Outer} {strict : Bool} {params : Params} {n : Nat} {f : Field} {v w : Val}
    (hx : NoExtractor f) (h : extract env o strict params (n + 1) f v = .ok w) :
    (∀ s, f ≠ .undef s) ∧ excluded o f params = false ∧
      ((v = .none ∧ w = .none) ∨ (v ≠ .none ∧ extractBody env o strict (extract env o strict params n) f v = .ok w)) := by
  have hf : ∀ s, f ≠ .undef s := by
    rintro s rfl
    exact absurd h (by simp [extract, extractStep])
  refine ⟨hf, ?_⟩
  have he : extract env o strict params (n + 1) f v =
      if excluded o f params then .error .excluded
      else if v.isNone then .ok .none
      else (applyExtractor o f v >>= fun w => extractBody env o strict (extract env o strict params n) f w) := by
    cases f with
    | undef s => exact absurd rfl (hf s)
    | _ => rfl
  rw [he] at h
  by_cases hex : excluded o f params = true
  · simp [hex] at h
  · simp only [hex, Bool.false_eq_true, if_false] at h
    refine ⟨by simpa using hex, ?_⟩
    cases v with
    | none => simp [Val.isNone] at h; exact .inl ⟨rfl, h.symm⟩
    | _ =>
      refine .inr ⟨by simp, ?_⟩
      simpa [Val.isNone, applyExtractor_none hx hf] using h

theorem extract_succ_of {env : Env} {o : Outer} {strict : Bool} {params : Params} {n : Nat} {f : Field} {v w : Val}
    (hx : NoExtractor f) (hf : ∀ s, f ≠ .undef s) (he : excluded o f params = false)
    (h : (v = .none ∧ w = .none) ∨ (v ≠ .none ∧ extractBody env o strict (extract env o strict params n) f v = .ok w)) :
    extract env o strict params (n + 1) f v = .ok w := by
  have he' : extract env o strict params (n + 1) f v =
      if excluded o f params then .error .excluded
      else if v.isNone then .ok .none
      else (applyExtractor o f v >>= fun w => extractBody env o strict (extract env o strict params n) f w) := by
    cases f with
    | undef s => exact absurd rfl (hf s)
    | _ => rfl
  rw [he', he]
  rcases h with ⟨rfl, rfl⟩ | ⟨hv, h⟩
  · rfl
  · have : v.isNone = false := by cases v <;> simp_all [Val.isNone]
    simp [this, applyExtractor_none hx hf, h]

theorem extractChild_ok {env : Env} {rec : Ext} {f : Field} {v : Val} {w : Val} :
    extractChild env rec f v = .ok w ↔ ∃ g, resolve env f = some g ∧ rec g v = .ok w := by
  unfold extractChild
  cases resolve env f <;> simp

/-! ### PartsOf -/

theorem extractItems_parts {env : Env} {rec : Ext} {item : Field} {l out : List Val}
    (hr : ∀ g, resolve env item = some g → ∀ v w, rec g v = .ok w → PartOf w v)
    (h : extractItems env rec item l = .ok out) : PartsOf out l := by
  induction l generalizing out with
  | nil => simp only [extractItems, Except.ok.injEq] at h; exact h ▸ .nil _
  | cons v r ih =>
    simp only [extractItems, except_bind_eq_ok, except_pure] at h
    obtain ⟨x, hx, r', hr', h⟩ := h
    cases x with
    | none => simp only [Except.ok.injEq] at h; exact h ▸ .skip _ (ih hr')
    | some w =>
      simp only [Except.ok.injEq] at h
      obtain ⟨g, hg, hw⟩ := extractChild_ok.1 (notExcluded_eq_some.1 hx)
      exact h ▸ .take (hr g hg _ _ hw) (ih hr')

theorem extractSlots_parts {env : Env} {rec : Ext} {fs : List Field} {l out : List Val}
    (hr : ∀ f ∈ fs, ∀ g, resolve env f = some g → ∀ v w, rec g v = .ok w → PartOf w v)
    (h : extractSlots env rec fs l = .ok out) : PartsOf out l := by
  induction fs generalizing l out with
  | nil => simp only [extractSlots, Except.ok.injEq] at h; exact h ▸ .nil _
  | cons f fs ih =>
    cases l with
    | nil => simp [extractSlots] at h
    | cons v r =>
      simp only [extractSlots, except_bind_eq_ok, except_pure] at h
      obtain ⟨x, hx, r', hr', h⟩ := h
      have ih := ih (fun f hf => hr f (List.mem_cons_of_mem _ hf)) hr'
      cases x with
      | none => simp only [Except.ok.injEq] at h; exact h ▸ .skip _ ih
      | some w =>
        simp only [Except.ok.injEq] at h
        obtain ⟨g, hg, hw⟩ := extractChild_ok.1 (notExcluded_eq_some.1 hx)
        exact h ▸ .take (hr f (List.mem_cons_self ..) g hg _ _ hw) ih

theorem extractEntries_parts {env : Env} {rec : Ext} {value : Field} {d out : List (Val × Val)}
    (hr : ∀ g, resolve env value = some g → ∀ v w, rec g v = .ok w → PartOf w v)
    (h : extractEntries env rec value d = .ok out) : ∀ e ∈ out, ∃ v, (e.1, v) ∈ d ∧ PartOf e.2 v := by
  induction d generalizing out with
  | nil => simp only [extractEntries, Except.ok.injEq] at h; subst h; simp
  | cons e r ih =>
    obtain ⟨k, v⟩ := e
    simp only [extractEntries, except_bind_eq_ok, except_pure] at h
    obtain ⟨x, hx, r', hr', h⟩ := h
    have ih := ih hr'
    cases x with
    | none =>
      simp only [Except.ok.injEq] at h; subst h
      intro e he; obtain ⟨v', hv, hp⟩ := ih e he
      exact ⟨v', List.mem_cons_of_mem _ hv, hp⟩
    | some w =>
      simp only [Except.ok.injEq] at h; subst h
      obtain ⟨g, hg, hw⟩ := extractChild_ok.1 (notExcluded_eq_some.1 hx)
      intro e he
      rcases List.mem_cons.1 he with rfl | he
      · exact ⟨v, List.mem_cons_self .., hr g hg _ _ hw⟩
      · obtain ⟨v', hv, hp⟩ := ih e he
        exact ⟨v', List.mem_cons_of_mem _ hv, hp⟩

theorem memberValue_dict {o : Outer} {d : List (Val × Val)} {k : Val} :
    memberValue o (.dict d) k = .ok (match dictGet d k with | some .none => none | r => r) := by
  unfold memberValue getMember
  cases h : dictGet d k with
  | none => simp [h]
  | some v => cases v <;> simp [h]

theorem memberValue_dict_some {o : Outer} {d : List (Val × Val)} {k v : Val} :
    memberValue o (.dict d) k = .ok (some v) ↔ dictGet d k = some v ∧ v ≠ .none := by
  rw [memberValue_dict]
  cases h : dictGet d k with
  | none => simp
  | some x => cases x <;> simp <;> rintro rfl <;> simp

theorem memberValue_dict_none {o : Outer} {d : List (Val × Val)} {k : Val} :
    memberValue o (.dict d) k = .ok none ↔ dictGet d k = none ∨ dictGet d k = some .none := by
  rw [memberValue_dict]
  cases h : dictGet d k with
  | none => simp
  | some x => cases x <;> simp

theorem extractMembers_parts {env : Env} {o : Outer} {rec : Ext} {d : List (Val × Val)} {defn : List (Str × Field)}
    {out : List (Val × Val)}
    (hr : ∀ e ∈ defn, ∀ g, resolve env e.2 = some g → ∀ v w, rec g v = .ok w → PartOf w v)
    (h : extractMembers env o rec (.dict d) defn = .ok out) : ∀ e ∈ out, ∃ v, (e.1, v) ∈ d ∧ PartOf e.2 v := by
  induction defn generalizing out with
  | nil => simp only [extractMembers, Except.ok.injEq] at h; subst h; simp
  | cons e r ih =>
    obtain ⟨name, f⟩ := e
    have ih := fun out => @ih out (fun e he => hr e (List.mem_cons_of_mem _ he))
    simp only [extractMembers, except_bind_eq_ok] at h
    obtain ⟨m, hm, h⟩ := h
    cases m with
    | none => exact ih _ h
    | some v =>
      simp only [except_bind_eq_ok, except_pure] at h
      obtain ⟨x, hx, r', hr', h⟩ := h
      have ih := ih _ hr'
      cases x with
      | none => simp only [Except.ok.injEq] at h; subst h; exact ih
      | some w =>
        simp only [Except.ok.injEq] at h; subst h
        obtain ⟨g, hg, hw⟩ := extractChild_ok.1 (notExcluded_eq_some.1 hx)
        intro e he
        rcases List.mem_cons.1 he with rfl | he
        · obtain ⟨k', hk, hkk⟩ := dictGet_mem (memberValue_dict_some.1 hm).1
          rw [pyEq_str_left] at hkk; subst hkk
          exact ⟨v, hk, hr _ (List.mem_cons_self ..) g hg _ _ hw⟩
        · exact ih e he

theorem PartOf.of_dict {d out : List (Val × Val)} (h : ∀ e ∈ out, ∃ v, (e.1, v) ∈ d ∧ PartOf e.2 v) :
    PartOf (.dict out) (.dict d) := by
  have : ∀ e : Val × Val, ∃ v, e ∈ out → (e.1, v) ∈ d ∧ PartOf e.2 v := by
    intro e
    by_cases he : e ∈ out
    · obtain ⟨v, hv⟩ := h e he; exact ⟨v, fun _ => hv⟩
    · exact ⟨.none, fun h => absurd h he⟩
  exact .dict (fun e => Classical.choose (this e)) (fun e he => (Classical.choose_spec (this e) he).1)
    (fun e he => (Classical.choose_spec (this e) he).2)

theorem extractUnion_parts {env : Env} {rec : Ext} {fs : List Field} {v w : Val}
    (hr : ∀ f ∈ fs, ∀ g, resolve env f = some g → ∀ v w, rec g v = .ok w → PartOf w v)
    (h : extractUnion env rec v fs = .ok w) : PartOf w v := by
  induction fs with
  | nil => simp [extractUnion] at h
  | cons f fs ih =>
    simp only [extractUnion] at h
    split at h
    · exact ih (fun f hf => hr f (List.mem_cons_of_mem _ hf)) h
    · obtain ⟨g, hg, hw⟩ := extractChild_ok.1 h
      exact hr f (List.mem_cons_self ..) g hg _ _ hw

theorem variantGet_mem' {vs : List (Val × List (Str × Field))} {id : Val} {defn : List (Str × Field)}
    (h : variantGet vs id = some defn) : ∃ i, (i, defn) ∈ vs ∧ pyEq id i = true := by
  induction vs with
  | nil => simp [variantGet] at h
  | cons e r ih =>
    obtain ⟨i, d⟩ := e
    simp only [variantGet] at h
    by_cases hi : pyEq id i = true
    · simp only [hi, if_true, Option.some.injEq] at h; subst h
      exact ⟨i, List.mem_cons_self .., hi⟩
    · simp only [hi, Bool.false_eq_true, if_false] at h
      obtain ⟨j, hj, he⟩ := ih h
      exact ⟨j, List.mem_cons_of_mem _ hj, he⟩

theorem variantAt_ok {vs : List (Val × List (Str × Field))} {id : Val} {defn : List (Str × Field)} :
    variantAt vs id = .ok defn ↔ hashable id = true ∧ variantGet vs id = some defn := by
  unfold variantAt
  by_cases h : hashable id = true
  · simp only [h, if_true, true_and]
    cases variantGet vs id <;> simp
  · simp [h]

/-- C30. Extraction in strict mode, with a schema without extractors, never invents data: whatever is
returned was part of the subject. -/
theorem C30_part (env : Env) (o : Outer) (params : Params) (n : Nat) (f : Field) (v w : Val)
    (hx : Everywhere env NoExtractor f) (h : extract env o true params n f v = .ok w) : PartOf w v := by
  induction n generalizing f v w with
  | zero => simp [extract] at h
  | succ n ih =>
    obtain ⟨-, -, ⟨rfl, rfl⟩ | ⟨-, h⟩⟩ := extract_succ_ok hx.here h
    · exact .whole _
    · have hc : ∀ g, Child env f g → ∀ v w, extract env o true params n g v = .ok w → PartOf w v :=
        fun g hg v w => ih g v w (hx.child hg)
      cases f with
      | leaf c k => simp only [extractBody, Except.ok.injEq] at h; exact h ▸ .whole _
      | undef s => simp [extractBody] at h
      | sequence c item a b u =>
        simp only [extractBody] at h
        have hi := fun g hg => hc g (.item (item := item) hg)
        cases v <;> simp only [extractSequence, except_map_eq_ok, reduceCtorEq] at h
        · obtain ⟨l, hl, rfl⟩ := h; exact .list (.inl rfl) (.inl rfl) (extractItems_parts hi hl)
        · obtain ⟨l, hl, rfl⟩ := h; exact .list (.inr rfl) (.inl rfl) (extractItems_parts hi hl)
      | map c k value r =>
        simp only [extractBody] at h
        have hi := fun g hg => hc g (.value (v := value) hg)
        cases v <;> simp only [extractMap, except_map_eq_ok, reduceCtorEq] at h
        obtain ⟨l, hl, rfl⟩ := h; exact .of_dict (extractEntries_parts hi hl)
      | tuple c fs =>
        simp only [extractBody] at h
        have hi := fun f hf g hg => hc g (.tuple (vs := fs) (f := f) hf hg)
        cases v <;> simp only [extractTuple, except_map_eq_ok, reduceCtorEq] at h
        · obtain ⟨l, hl, rfl⟩ := h; exact .list (.inl rfl) (.inr rfl) (extractSlots_parts hi hl)
        · obtain ⟨l, hl, rfl⟩ := h; exact .list (.inr rfl) (.inr rfl) (extractSlots_parts hi hl)
      | union c fs =>
        simp only [extractBody] at h
        exact extractUnion_parts (fun f hf g hg => hc g (.union (fs := fs) (f := f) hf hg)) h
      | «structure» c defn s ko =>
        simp only [extractBody] at h
        have hi := fun (e : Str × Field) (he : e ∈ defn) g hg => hc g (.member (n := e.1) he hg)
        cases v <;> simp only [extractPlain, except_map_eq_ok, if_true, reduceCtorEq] at h
        obtain ⟨l, hl, rfl⟩ := h; exact .of_dict (extractMembers_parts hi hl)
      | poly c disc vs s ko =>
        simp only [extractBody] at h
        cases v <;> simp only [extractPoly, if_true, reduceCtorEq] at h
        rename_i d
        split at h
        · cases h
        · rename_i id hid
          by_cases ht : id.truthy = true
          · simp only [ht, if_true, except_bind_eq_ok, except_map_eq_ok] at h
            obtain ⟨defn, hd, l, hl, rfl⟩ := h
            obtain ⟨i, hi, -⟩ := variantGet_mem' (variantAt_ok.1 hd).2
            exact .of_dict (extractMembers_parts
              (fun (e : Str × Field) (he : e ∈ defn) g hg => hc g (.variant (n := e.1) hi he hg)) hl)
          · simp only [ht, Bool.false_eq_true, if_false, except_map_eq_ok] at h
            obtain ⟨_, _, rfl⟩ := h
            exact .of_dict (by simp)

/-! ### Members of a structure -/

/-- What the loop over declared members stores for each of them. -/
theorem extractMembers_given {env : Env} {o : Outer} {rec : Ext} {d : List (Val × Val)} {defn : List (Str × Field)}
    {out : List (Val × Val)} (hnd : (defn.map (·.1)).Nodup)
    (h : extractMembers env o rec (.dict d) defn = .ok out) (name : Str) (w : Val) :
    given out name = some w ↔ ∃ f g v, defn.lookup name = some f ∧ given d name = some v ∧ v ≠ .none ∧
      resolve env f = some g ∧ rec g v = .ok w := by
  induction defn generalizing out with
  | nil => simp only [extractMembers, Except.ok.injEq] at h; subst h; simp [given]
  | cons e r ih =>
    obtain ⟨nm, f⟩ := e
    rw [List.map_cons, List.nodup_cons] at hnd
    simp only [extractMembers, except_bind_eq_ok] at h
    obtain ⟨m, hm, h⟩ := h
    have hlk : ∀ {x}, (List.lookup name ((nm, f) :: r) = some x) ↔
        (name = nm ∧ x = f) ∨ (name ≠ nm ∧ r.lookup name = some x) := by
      intro x
      simp only [List.lookup_cons]
      by_cases hn : name = nm
      · subst hn; simp [eq_comm]
      · have : (name == nm) = false := by simpa using hn
        simp [this, hn]
    have hne : ∀ x, r.lookup name = some x → name ≠ nm := by
      rintro x hx rfl
      refine hnd.1 (List.mem_map.2 ⟨(name, x), ?_, rfl⟩)
      exact lookup_mem hx
    -- the entries of the rest never hold `nm`
    have rest : ∀ out', extractMembers env o rec (.dict d) r = .ok out' →
        (given out' name = some w ↔ ∃ f g v, r.lookup name = some f ∧ given d name = some v ∧ v ≠ .none ∧
          resolve env f = some g ∧ rec g v = .ok w) := fun out' h' => ih hnd.2 h'
    cases m with
    | none =>
      rw [rest out h]
      rw [memberValue_dict_none, dictGet_str_eq_given] at hm
      constructor
      · rintro ⟨f', g, v, hl, hv⟩
        exact ⟨f', g, v, hlk.2 (.inr ⟨hne _ hl, hl⟩), hv⟩
      · rintro ⟨f', g, v, hl, hv, hvn, hg⟩
        rcases hlk.1 hl with ⟨rfl, rfl⟩ | ⟨_, hl⟩
        · rw [hv] at hm; simp [hvn] at hm
        · exact ⟨f', g, v, hl, hv, hvn, hg⟩
    | some v =>
      rw [memberValue_dict_some, dictGet_str_eq_given] at hm
      simp only [except_bind_eq_ok, except_pure] at h
      obtain ⟨x, hx, r', hr', h⟩ := h
      cases x with
      | none =>
        simp only [Except.ok.injEq] at h; subst h
        rw [notExcluded_eq_none] at hx
        rw [rest _ hr']
        constructor
        · rintro ⟨f', g, v, hl, hv⟩
          exact ⟨f', g, v, hlk.2 (.inr ⟨hne _ hl, hl⟩), hv⟩
        · rintro ⟨f', g, v', hl, hv, hvn, hg, hw⟩
          rcases hlk.1 hl with ⟨rfl, rfl⟩ | ⟨_, hl⟩
          · rw [hm.1] at hv; cases hv
            simp [extractChild, hg, hw] at hx
          · exact ⟨f', g, v', hl, hv, hvn, hg, hw⟩
      | some w' =>
        simp only [Except.ok.injEq] at h; subst h
        obtain ⟨g, hg, hw⟩ := extractChild_ok.1 (notExcluded_eq_some.1 hx)
        rw [given_cons_str]
        by_cases hn : nm = name
        · subst hn
          simp only [if_true, Option.some.injEq]
          constructor
          · rintro rfl
            exact ⟨f, g, v, by simp, hm.1, hm.2, hg, hw⟩
          · rintro ⟨f', g', v', hl, hv, -, hg', hw'⟩
            rcases hlk.1 hl with ⟨-, rfl⟩ | ⟨h, _⟩
            · rw [hm.1] at hv; cases hv
              rw [hg] at hg'; cases hg'
              rw [hw] at hw'; cases hw'; rfl
            · exact absurd rfl h
        · simp only [hn, if_false]
          rw [rest _ hr']
          constructor
          · rintro ⟨f', g, v, hl, hv⟩
            exact ⟨f', g, v, hlk.2 (.inr ⟨hne _ hl, hl⟩), hv⟩
          · rintro ⟨f', g, v', hl, hv⟩
            rcases hlk.1 hl with ⟨rfl, rfl⟩ | ⟨_, hl⟩
            · exact absurd rfl hn
            · exact ⟨f', g, v', hl, hv⟩

theorem extractMembers_keys {env : Env} {o : Outer} {rec : Ext} {subject : Val} {defn : List (Str × Field)}
    {out : List (Val × Val)} (h : extractMembers env o rec subject defn = .ok out) :
    (out.map (·.1)).Sublist (defn.map fun e => Val.str e.1) := by
  induction defn generalizing out with
  | nil => simp only [extractMembers, Except.ok.injEq] at h; subst h; simp
  | cons e r ih =>
    obtain ⟨nm, f⟩ := e
    simp only [extractMembers, except_bind_eq_ok] at h
    obtain ⟨m, hm, h⟩ := h
    cases m with
    | none => exact (ih h).cons _
    | some v =>
      simp only [except_bind_eq_ok, except_pure] at h
      obtain ⟨x, hx, r', hr', h⟩ := h
      cases x with
      | none => simp only [Except.ok.injEq] at h; subst h; exact (ih hr').cons _
      | some w => simp only [Except.ok.injEq] at h; subst h; exact (ih hr').cons_cons _

/-- C30. Extracting from a dict with a plain structure: the result is a dict whose keys are declared names, in
the order of declaration, without repetition; a name is in it exactly when it is declared, present in the
subject with a value other than None, and not excluded by the screening parameters; it then holds what the
member's field extracts. -/
theorem C30_members (env : Env) (o : Outer) (strict : Bool) (params : Params) (n : Nat) (c : Common)
    (defn : List (Str × Field)) (s : Bool) (ko : List Str) (d : List (Val × Val)) (r : Val)
    (hx : c.extor = none) (hnd : (defn.map (·.1)).Nodup)
    (h : extract env o strict params (n + 1) (.structure c defn s ko) (.dict d) = .ok r) :
    ∃ out, r = .dict out ∧ (out.map (·.1)).Sublist (defn.map fun e => Val.str e.1) ∧
      ∀ name w, given out name = some w ↔ ∃ f g v, defn.lookup name = some f ∧ resolve env f = some g ∧
        given d name = some v ∧ v ≠ .none ∧ extract env o strict params n g v = .ok w := by
  obtain ⟨-, -, ⟨h, -⟩ | ⟨-, h⟩⟩ := extract_succ_ok (by intro c' hc; cases hc; exact hx) h
  · cases h
  · simp only [extractBody, extractPlain, except_map_eq_ok] at h
    obtain ⟨out, hout, rfl⟩ := h
    refine ⟨out, rfl, extractMembers_keys hout, fun name w => ?_⟩
    rw [extractMembers_given hnd hout]
    constructor
    · rintro ⟨f, g, v, h1, h2, h3, h4, h5⟩; exact ⟨f, g, v, h1, h4, h2, h3, h5⟩
    · rintro ⟨f, g, v, h1, h4, h2, h3, h5⟩; exact ⟨f, g, v, h1, h2, h3, h4, h5⟩

/-! ### Fuel -/

theorem Le.map {b : Bool} {α β : Type} {x y : Except Exn α} {f : α → β} (h : Le b x y) : Le b (x.map f) (y.map f) := by
  rcases h with rfl | ⟨hb, rfl⟩
  · exact .refl _
  · exact .inr ⟨hb, rfl⟩

theorem Le.notExcluded {b : Bool} {x y : Except Exn Val} (h : Le b x y) : Le b (notExcluded x) (notExcluded y) := by
  rcases h with rfl | ⟨hb, rfl⟩
  · exact .refl _
  · exact .inr ⟨hb, rfl⟩

theorem extractChild_le {env : Env} {rec rec' : Ext} (h : ∀ f v, Le true (rec f v) (rec' f v)) (f : Field) (v : Val) :
    Le true (extractChild env rec f v) (extractChild env rec' f v) := by
  unfold extractChild
  cases resolve env f with
  | none => exact .refl _
  | some g => exact h g v

theorem extractBody_le {env : Env} {o : Outer} {strict : Bool} {rec rec' : Ext}
    (h : ∀ f v, Le true (rec f v) (rec' f v)) (f : Field) (v : Val) :
    Le true (extractBody env o strict rec f v) (extractBody env o strict rec' f v) := by
  have hi : ∀ item l, Le true (extractItems env rec item l) (extractItems env rec' item l) := by
    intro item l
    induction l with
    | nil => exact .refl _
    | cons v r ih => exact Le.bind (extractChild_le h _ _).notExcluded fun x => Le.bind ih fun y => .refl _
  have he : ∀ item d, Le true (extractEntries env rec item d) (extractEntries env rec' item d) := by
    intro item d
    induction d with
    | nil => exact .refl _
    | cons v r ih => exact Le.bind (extractChild_le h _ _).notExcluded fun x => Le.bind ih fun y => .refl _
  have hs : ∀ fs l, Le true (extractSlots env rec fs l) (extractSlots env rec' fs l) := by
    intro fs
    induction fs with
    | nil => intro l; exact .refl _
    | cons f fs ih =>
      intro l
      cases l with
      | nil => exact .refl _
      | cons v r => exact Le.bind (extractChild_le h _ _).notExcluded fun x => Le.bind (ih r) fun y => .refl _
  have hm : ∀ subject defn, Le true (extractMembers env o rec subject defn) (extractMembers env o rec' subject defn) := by
    intro subject defn
    induction defn with
    | nil => exact .refl _
    | cons v r ih =>
      refine Le.bind (.refl _) fun m => ?_
      cases m with
      | none => exact ih
      | some v => exact Le.bind (extractChild_le h _ _).notExcluded fun x => Le.bind ih fun y => .refl _
  have hu : ∀ fs, Le true (extractUnion env rec v fs) (extractUnion env rec' v fs) := by
    intro fs
    induction fs with
    | nil => exact .refl _
    | cons f fs ih =>
      simp only [extractUnion]
      rcases extractChild_le (env := env) h f v with he | ⟨_, he⟩
      · rw [he]
        split
        · exact ih
        · exact .refl _
      · rw [he]; exact .inr ⟨rfl, rfl⟩
  cases f with
  | leaf c k => exact .refl _
  | undef s => exact .refl _
  | sequence c item a b u => cases v <;> first | exact (hi _ _).map | exact .refl _
  | map c k value r => cases v <;> first | exact (he _ _).map | exact .refl _
  | tuple c fs => cases v <;> first | exact (hs _ _).map | exact .refl _
  | union c fs => exact hu fs
  | «structure» c defn s ko =>
    simp only [extractBody, extractPlain]
    split
    · exact (hm _ _).map
    · split
      · exact .refl _
      · exact (hm _ _).map
  | poly c disc vs s ko =>
    simp only [extractBody, extractPoly]
    have hgo : Le true
        (match getMember o v (.str (disc.name.getD [])) with
          | .error e => .error (.py e)
          | .ok id => if id.truthy then (variantAt vs id >>= fun defn => (extractMembers env o rec v defn).map Val.dict)
            else (extractIdentities o v vs).map fun _ => Val.dict [])
        (match getMember o v (.str (disc.name.getD [])) with
          | .error e => .error (.py e)
          | .ok id => if id.truthy then (variantAt vs id >>= fun defn => (extractMembers env o rec' v defn).map Val.dict)
            else (extractIdentities o v vs).map fun _ => Val.dict []) := by
      split
      · exact .refl _
      · split
        · exact Le.bind (.refl _) fun defn => (hm _ _).map
        · exact .refl _
    split
    · exact hgo
    · split
      · exact .refl _
      · exact hgo

theorem extract_le_succ (env : Env) (o : Outer) (strict : Bool) (params : Params) (n : Nat) (f : Field) (v : Val) :
    Le true (extract env o strict params n f v) (extract env o strict params (n + 1) f v) := by
  induction n generalizing f v with
  | zero => exact .inr ⟨rfl, rfl⟩
  | succ n ih =>
    show Le true (extractStep env o strict params _ f v) (extractStep env o strict params _ f v)
    unfold extractStep
    split
    · exact .refl _
    · split
      · exact .refl _
      · split
        · exact .refl _
        · exact Le.bind (.refl _) fun w => extractBody_le ih _ _

theorem extract_mono {env : Env} {o : Outer} {strict : Bool} {params : Params} {n m : Nat} {f : Field} {v w : Val}
    (h : extract env o strict params n f v = .ok w) (hm : n ≤ m) : extract env o strict params m f v = .ok w := by
  induction hm with
  | refl => exact h
  | step _ ih =>
    rcases extract_le_succ env o strict params _ f v with he | ⟨_, he⟩
    · rw [← he, ih]
    · rw [he] at ih; cases ih

/-! ### Success -/

theorem notExcluded_not_excluded (x : Except Exn Val) : notExcluded x ≠ .error .excluded := by
  rcases x with e | v
  · cases e <;> simp [notExcluded]
  · simp [notExcluded]

theorem excluded_nil (o : Outer) (f : Field) : excluded o f [] = false := rfl

/-- Without screening parameters nothing is excluded. -/
theorem extract_not_excluded {env : Env} {o : Outer} {strict : Bool} {n : Nat} {f : Field} {v : Val}
    (hu : NotUnion f) : extract env o strict [] n f v ≠ .error .excluded := by
  cases n with
  | zero => simp [extract]
  | succ n =>
    intro h
    have hi : ∀ item l, extractItems env (extract env o strict [] n) item l ≠ .error .excluded := by
      intro item l
      induction l with
      | nil => simp [extractItems]
      | cons v r ih =>
        simp only [extractItems, ne_eq, except_bind_eq_error, except_pure, reduceCtorEq, and_false, exists_false, or_false,
          not_or, not_exists, not_and]
        exact ⟨notExcluded_not_excluded _, fun _ _ => ih⟩
    have he : ∀ item d, extractEntries env (extract env o strict [] n) item d ≠ .error .excluded := by
      intro item l
      induction l with
      | nil => simp [extractEntries]
      | cons v r ih =>
        simp only [extractEntries, ne_eq, except_bind_eq_error, except_pure, reduceCtorEq, and_false, exists_false, or_false,
          not_or, not_exists, not_and]
        exact ⟨notExcluded_not_excluded _, fun _ _ => ih⟩
    have hs : ∀ fs l, extractSlots env (extract env o strict [] n) fs l ≠ .error .excluded := by
      intro fs
      induction fs with
      | nil => intro l; simp [extractSlots]
      | cons f fs ih =>
        intro l
        cases l with
        | nil => simp [extractSlots]
        | cons v r =>
          simp only [extractSlots, ne_eq, except_bind_eq_error, except_pure, reduceCtorEq, and_false, exists_false, or_false,
            not_or, not_exists, not_and]
          exact ⟨notExcluded_not_excluded _, fun _ _ => ih _⟩
    have hv : ∀ subject k, memberValue o subject k ≠ .error .excluded := by
      intro subject k
      unfold memberValue
      split <;> simp
    have hm : ∀ subject defn, extractMembers env o (extract env o strict [] n) subject defn ≠ .error .excluded := by
      intro subject defn
      induction defn with
      | nil => simp [extractMembers]
      | cons e r ih =>
        simp only [extractMembers, ne_eq, except_bind_eq_error, not_or, not_exists, not_and]
        refine ⟨hv _ _, fun m _ => ?_⟩
        cases m with
        | none => exact ih
        | some v =>
          simp only [except_bind_eq_error, except_pure, reduceCtorEq, and_false, exists_false, or_false,
            not_or, not_exists, not_and]
          exact ⟨notExcluded_not_excluded _, fun _ _ => ih⟩
    have hid : ∀ subject vs, extractIdentities o subject vs ≠ .error .excluded := by
      intro subject vs
      induction vs with
      | nil => simp [extractIdentities]
      | cons e r ih =>
        simp only [extractIdentities, ne_eq, except_bind_eq_error, not_or, not_exists, not_and]
        refine ⟨hv _ _, fun m _ => ?_⟩
        cases m with
        | none => exact ih
        | some v => simp
    have hmap : ∀ {α : Type} {x : Except Exn α} {f : α → Val}, x.map f = .error .excluded → x = .error .excluded := by
      intro α x f h
      cases x with
      | error e => simpa [Except.map] using h
      | ok a => simp [Except.map] at h
    have hf : ∀ s, f ≠ .undef s := by
      rintro s rfl
      exact absurd h (by simp [extract, extractStep])
    have hb : ∃ w, extractBody env o strict (extract env o strict [] n) f w = .error .excluded := by
      have he' : extract env o strict [] (n + 1) f v =
          if excluded o f [] then .error .excluded
          else if v.isNone then .ok .none
          else (applyExtractor o f v >>= fun w => extractBody env o strict (extract env o strict [] n) f w) := by
        cases f with
        | undef s => exact absurd rfl (hf s)
        | _ => rfl
      rw [he', excluded_nil] at h
      simp only [Bool.false_eq_true, if_false] at h
      split at h
      · cases h
      · rw [except_bind_eq_error] at h
        rcases h with h | ⟨w, _, h⟩
        · exfalso
          have hex : ∀ h', extractor o f h' v ≠ .error .excluded := by
            intro h'
            unfold extractor
            split
            · simp
            · split <;> simp
          cases f with
          | union c fs => exact hu c fs rfl
          | undef s => exact hf s rfl
          | _ => exact hex _ h
        · exact ⟨w, h⟩
    obtain ⟨v, hb⟩ := hb
    cases f with
    | leaf c k => simp [extractBody] at hb
    | undef s => simp [extractBody] at hb
    | union c fs => exact hu c fs rfl
    | sequence c item a b u =>
      cases v <;> simp only [extractBody, extractSequence, Except.error.injEq, reduceCtorEq] at hb <;> exact hi _ _ (hmap hb)
    | map c k value r =>
      cases v <;> simp only [extractBody, extractMap, Except.error.injEq, reduceCtorEq] at hb <;> exact he _ _ (hmap hb)
    | tuple c fs =>
      cases v <;> simp only [extractBody, extractTuple, Except.error.injEq, reduceCtorEq] at hb <;> exact hs _ _ (hmap hb)
    | «structure» c defn s ko =>
      simp only [extractBody, extractPlain] at hb
      split at hb
      · exact hm _ _ (hmap hb)
      · split at hb
        · cases hb
        · exact hm _ _ (hmap hb)
    | poly c disc vs s ko =>
      simp only [extractBody, extractPoly] at hb
      have hgo : ∀ x, x = (match getMember o v (.str (disc.name.getD [])) with
          | .error e => Except.error (Exn.py e)
          | .ok id => if id.truthy then (variantAt vs id >>= fun defn => (extractMembers env o (extract env o strict [] n) v defn).map Val.dict)
            else (extractIdentities o v vs).map fun _ => Val.dict []) → x ≠ .error .excluded := by
        intro x hx h
        rw [h] at hx
        split at hx
        · cases hx
        · split at hx
          · rw [eq_comm, except_bind_eq_error] at hx
            rcases hx with hx | ⟨defn, _, hx⟩
            · unfold variantAt at hx
              split at hx
              · split at hx <;> cases hx
              · cases hx
            · exact hm _ _ (hmap hx)
          · exact hid _ _ (hmap hx.symm)
      split at hb
      · exact hgo _ rfl hb
      · split at hb
        · cases hb
        · exact hgo _ rfl hb

/-- The child extraction, when nothing is excluded. -/
theorem childOk {env : Env} {rec : Ext} {f : Field} {v : Val} {x : Option Val}
    (hne : ∀ g, resolve env f = some g → rec g v ≠ .error .excluded)
    (h : notExcluded (extractChild env rec f v) = .ok x) :
    ∃ g w, resolve env f = some g ∧ x = some w ∧ rec g v = .ok w := by
  cases x with
  | none =>
    rw [notExcluded_eq_none] at h
    unfold extractChild at h
    cases hr : resolve env f with
    | none => simp [hr] at h
    | some g => rw [hr] at h; exact absurd h (hne g hr)
  | some w =>
    obtain ⟨g, hg, hw⟩ := extractChild_ok.1 (notExcluded_eq_some.1 h)
    exact ⟨g, w, hg, rfl, hw⟩

theorem childOk_of {env : Env} {rec : Ext} {f g : Field} {v w : Val} (hg : resolve env f = some g) (h : rec g v = .ok w) :
    notExcluded (extractChild env rec f v) = .ok (some w) :=
  notExcluded_eq_some.2 (extractChild_ok.2 ⟨g, hg, h⟩)

section
variable {env : Env} {o : Outer} {rec : Ext}

theorem extractItems_ok {item : Field} {l : List Val}
    (hne : ∀ g, resolve env item = some g → ∀ v ∈ l, rec g v ≠ .error .excluded) :
    (∃ out, extractItems env rec item l = .ok out) ↔
      (l ≠ [] → ∃ g, resolve env item = some g) ∧ ∀ g, resolve env item = some g → ∀ x ∈ l, ∃ w, rec g x = .ok w := by
  induction l with
  | nil => simp [extractItems]
  | cons v r ih =>
    have ih := ih fun g hg v hv => hne g hg v (List.mem_cons_of_mem _ hv)
    constructor
    · rintro ⟨out, h⟩
      simp only [extractItems, except_bind_eq_ok, except_pure] at h
      obtain ⟨x, hx, r', hr', h⟩ := h
      obtain ⟨g, w, hg, rfl, hw⟩ := childOk (fun g hg => hne g hg v (List.mem_cons_self ..)) hx
      refine ⟨fun _ => ⟨g, hg⟩, fun g' hg' y hy => ?_⟩
      rw [hg] at hg'; cases hg'
      rcases List.mem_cons.1 hy with rfl | hy
      · exact ⟨w, hw⟩
      · exact (ih.1 ⟨_, hr'⟩).2 g hg y hy
    · rintro ⟨h1, h2⟩
      obtain ⟨g, hg⟩ := h1 (by simp)
      obtain ⟨w, hw⟩ := h2 g hg v (List.mem_cons_self ..)
      obtain ⟨out, hout⟩ := ih.2 ⟨fun _ => ⟨g, hg⟩, fun g hg x hx => h2 g hg x (List.mem_cons_of_mem _ hx)⟩
      exact ⟨w :: out, by simp [extractItems, childOk_of hg hw, hout]⟩

theorem extractEntries_ok {value : Field} {d : List (Val × Val)}
    (hne : ∀ g, resolve env value = some g → ∀ e ∈ d, rec g e.2 ≠ .error .excluded) :
    (∃ out, extractEntries env rec value d = .ok out) ↔
      (d ≠ [] → ∃ g, resolve env value = some g) ∧ ∀ g, resolve env value = some g → ∀ e ∈ d, ∃ w, rec g e.2 = .ok w := by
  induction d with
  | nil => simp [extractEntries]
  | cons v r ih =>
    have ih := ih fun g hg v hv => hne g hg v (List.mem_cons_of_mem _ hv)
    constructor
    · rintro ⟨out, h⟩
      simp only [extractEntries, except_bind_eq_ok, except_pure] at h
      obtain ⟨x, hx, r', hr', h⟩ := h
      obtain ⟨g, w, hg, rfl, hw⟩ := childOk (fun g hg => hne g hg v (List.mem_cons_self ..)) hx
      refine ⟨fun _ => ⟨g, hg⟩, fun g' hg' y hy => ?_⟩
      rw [hg] at hg'; cases hg'
      rcases List.mem_cons.1 hy with rfl | hy
      · exact ⟨w, hw⟩
      · exact (ih.1 ⟨_, hr'⟩).2 g hg y hy
    · rintro ⟨h1, h2⟩
      obtain ⟨g, hg⟩ := h1 (by simp)
      obtain ⟨w, hw⟩ := h2 g hg v (List.mem_cons_self ..)
      obtain ⟨out, hout⟩ := ih.2 ⟨fun _ => ⟨g, hg⟩, fun g hg x hx => h2 g hg x (List.mem_cons_of_mem _ hx)⟩
      exact ⟨(v.1, w) :: out, by obtain ⟨k, v⟩ := v; simp [extractEntries, childOk_of hg hw, hout]⟩

theorem extractSlots_ok {fs : List Field} {l : List Val}
    (hne : ∀ p ∈ fs.zip l, ∀ g, resolve env p.1 = some g → rec g p.2 ≠ .error .excluded) :
    (∃ out, extractSlots env rec fs l = .ok out) ↔
      fs.length ≤ l.length ∧ (∀ p ∈ fs.zip l, ∃ g, resolve env p.1 = some g) ∧
      ∀ p ∈ fs.zip l, ∀ g, resolve env p.1 = some g → ∃ w, rec g p.2 = .ok w := by
  induction fs generalizing l with
  | nil => simp [extractSlots]
  | cons f fs ih =>
    cases l with
    | nil => simp [extractSlots]
    | cons v r =>
      have ih := @ih r fun p hp => hne p (List.mem_cons_of_mem _ hp)
      rw [List.zip_cons_cons] at hne ⊢
      constructor
      · rintro ⟨out, h⟩
        simp only [extractSlots, except_bind_eq_ok, except_pure] at h
        obtain ⟨x, hx, r', hr', h⟩ := h
        obtain ⟨g, w, hg, rfl, hw⟩ := childOk (fun g hg => hne (f, v) (List.mem_cons_self ..) g hg) hx
        obtain ⟨i1, i2, i3⟩ := ih.1 ⟨_, hr'⟩
        refine ⟨by simpa using i1, fun p hp => ?_, fun p hp g' hg' => ?_⟩
        · rcases List.mem_cons.1 hp with rfl | hp
          · exact ⟨g, hg⟩
          · exact i2 p hp
        · rcases List.mem_cons.1 hp with rfl | hp
          · rw [hg] at hg'; cases hg'; exact ⟨w, hw⟩
          · exact i3 p hp g' hg'
      · rintro ⟨h1, h2, h3⟩
        obtain ⟨g, hg⟩ := h2 (f, v) (List.mem_cons_self ..)
        obtain ⟨w, hw⟩ := h3 (f, v) (List.mem_cons_self ..) g hg
        obtain ⟨out, hout⟩ := ih.2 ⟨by simpa using h1, fun p hp => h2 p (List.mem_cons_of_mem _ hp),
          fun p hp => h3 p (List.mem_cons_of_mem _ hp)⟩
        exact ⟨w :: out, by simp [extractSlots, childOk_of hg hw, hout]⟩

theorem extractMembers_ok {d : List (Val × Val)} {defn : List (Str × Field)}
    (hne : ∀ e ∈ defn, ∀ x, given d e.1 = some x → ∀ g, resolve env e.2 = some g → rec g x ≠ .error .excluded) :
    (∃ out, extractMembers env o rec (.dict d) defn = .ok out) ↔
      (∀ e ∈ defn, ∀ x, given d e.1 = some x → x ≠ .none → ∃ g, resolve env e.2 = some g) ∧
      ∀ e ∈ defn, ∀ x, given d e.1 = some x → x ≠ .none → ∀ g, resolve env e.2 = some g → ∃ w, rec g x = .ok w := by
  induction defn with
  | nil => simp [extractMembers]
  | cons e r ih =>
    obtain ⟨name, f⟩ := e
    have ih := ih fun e he => hne e (List.mem_cons_of_mem _ he)
    have hm := @memberValue_dict o d (.str name)
    rw [dictGet_str_eq_given] at hm
    constructor
    · rintro ⟨out, h⟩
      simp only [extractMembers, except_bind_eq_ok] at h
      obtain ⟨m, hm', h⟩ := h
      cases m with
      | none =>
        rw [memberValue_dict_none, dictGet_str_eq_given] at hm'
        obtain ⟨i1, i2⟩ := ih.1 ⟨_, h⟩
        refine ⟨fun e he x hx hxn => ?_, fun e he x hx hxn => ?_⟩
        · rcases List.mem_cons.1 he with rfl | he
          · rw [hx] at hm'; simp [hxn] at hm'
          · exact i1 e he x hx hxn
        · rcases List.mem_cons.1 he with rfl | he
          · rw [hx] at hm'; simp [hxn] at hm'
          · exact i2 e he x hx hxn
      | some v =>
        rw [memberValue_dict_some, dictGet_str_eq_given] at hm'
        simp only [except_bind_eq_ok, except_pure] at h
        obtain ⟨x, hx, r', hr', h⟩ := h
        obtain ⟨g, w, hg, rfl, hw⟩ := childOk (fun g hg => hne _ (List.mem_cons_self ..) v hm'.1 g hg) hx
        obtain ⟨i1, i2⟩ := ih.1 ⟨_, hr'⟩
        refine ⟨fun e he x hx hxn => ?_, fun e he x hx hxn g' hg' => ?_⟩
        · rcases List.mem_cons.1 he with rfl | he
          · exact ⟨g, hg⟩
          · exact i1 e he x hx hxn
        · rcases List.mem_cons.1 he with rfl | he
          · rw [hm'.1] at hx; cases hx
            rw [hg] at hg'; cases hg'
            exact ⟨w, hw⟩
          · exact i2 e he x hx hxn g' hg'
    · rintro ⟨h1, h2⟩
      obtain ⟨out, hout⟩ := ih.2 ⟨fun e he => h1 e (List.mem_cons_of_mem _ he), fun e he => h2 e (List.mem_cons_of_mem _ he)⟩
      by_cases hg : ∃ x, given d name = some x ∧ x ≠ .none
      · obtain ⟨x, hx, hxn⟩ := hg
        obtain ⟨g, hg⟩ := h1 _ (List.mem_cons_self ..) x hx hxn
        obtain ⟨w, hw⟩ := h2 _ (List.mem_cons_self ..) x hx hxn g hg
        have : memberValue o (.dict d) (.str name) = .ok (some x) := by
          rw [memberValue_dict_some, dictGet_str_eq_given]; exact ⟨hx, hxn⟩
        exact ⟨(.str name, w) :: out, by simp [extractMembers, this, childOk_of hg hw, hout]⟩
      · have : memberValue o (.dict d) (.str name) = .ok none := by
          rw [memberValue_dict_none, dictGet_str_eq_given]
          cases hgv : given d name with
          | none => exact .inl rfl
          | some x =>
            right
            by_cases hxn : x = .none
            · rw [hxn]
            · exact absurd ⟨x, hgv, hxn⟩ hg
        exact ⟨out, by simp [extractMembers, this, hout]⟩

theorem extractIdentities_ok {d : List (Val × Val)} {vs : List (Val × List (Str × Field))} {u : Unit} :
    extractIdentities o (.dict d) vs = .ok u ↔ ∀ e ∈ vs, dictGet d e.1 = none ∨ dictGet d e.1 = some .none := by
  induction vs with
  | nil => simp [extractIdentities]
  | cons e r ih =>
    obtain ⟨i, defn⟩ := e
    simp only [extractIdentities, memberValue_dict, except_bind_ok, List.mem_cons, forall_eq_or_imp]
    cases hg : dictGet d i with
    | none => simp [ih]
    | some x => cases x <;> simp [ih]

end

theorem variantIn_eq (vs : List (Val × List (Str × Field))) (id : Val) : variantIn vs id = variantGet vs id := by
  unfold variantIn
  induction vs with
  | nil => rfl
  | cons e r ih =>
    obtain ⟨i, d⟩ := e
    simp only [variantGet, List.find?_cons]
    by_cases h : pyEq id i = true
    · simp [h]
    · rw [Bool.not_eq_true] at h
      simp only [h, Bool.false_eq_true, if_false]; exact ih

theorem given_depth {d : List (Val × Val)} {name : Str} {x : Val} (h : given d name = some x) : x.depth < (Val.dict d).depth := by
  obtain ⟨k, hk⟩ := given_mem h
  have := (depthD_mem hk).2
  simp only [Val.depth]; simp only at this; omega

theorem extract_succ_iff {env : Env} {o : Outer} {strict : Bool} {n : Nat} {f : Field} {v : Val} (hx : NoExtractor f)
    (hf : ∀ s, f ≠ .undef s) (hv : v ≠ .none) :
    (∃ w, extract env o strict [] (n + 1) f v = .ok w) ↔
      ∃ w, extractBody env o strict (extract env o strict [] n) f v = .ok w := by
  constructor
  · rintro ⟨w, h⟩
    obtain ⟨-, -, ⟨h, -⟩ | ⟨-, h⟩⟩ := extract_succ_ok hx h
    · exact absurd h hv
    · exact ⟨w, h⟩
  · rintro ⟨w, h⟩
    exact ⟨w, extract_succ_of hx hf (excluded_nil o f) (.inr ⟨hv, h⟩)⟩

theorem mapOk_iff {ε α β} {x : Except ε α} {f : α → β} : (∃ b, x.map f = .ok b) ↔ ∃ a, x = .ok a := by
  cases x <;> simp [Except.map]

/-- C30. When extraction (strict, no screening parameters, no unions, no extractors) succeeds, given enough
stack for the nesting of the subject: exactly when the subject has the shape of the schema. -/
theorem C30_succeeds (env : Env) (o : Outer) (n : Nat) (f : Field) (v : Val) (hn : v.depth < n)
    (hx : Everywhere env NoExtractor f) (hu : Everywhere env NotUnion f) :
    (∃ w, extract env o true [] n f v = .ok w) ↔ Extractable env true f v := by
  induction n generalizing f v with
  | zero => omega
  | succ n ih =>
    by_cases hv : v = .none
    · subst hv
      constructor
      · rintro ⟨w, h⟩; exact .null (extract_succ_ok hx.here h).1
      · intro h
        have hf : ∀ s, f ≠ .undef s := by
          cases h with
          | null h => exact h
          | leaf => simp
          | sequence h _ _ => simp
          | tuple h _ _ _ => simp
        exact ⟨.none, extract_succ_of hx.here hf (excluded_nil o f) (.inl ⟨rfl, rfl⟩)⟩
    · have hne : ∀ g, Child env f g → ∀ x, extract env o true [] n g x ≠ .error .excluded :=
        fun g hg x => extract_not_excluded (hu.child hg).here
      have ih : ∀ g, Child env f g → ∀ x, x.depth < v.depth →
          ((∃ w, extract env o true [] n g x = .ok w) ↔ Extractable env true g x) :=
        fun g hg x hd => ih g x (by omega) (hx.child hg) (hu.child hg)
      cases f with
      | undef s =>
        constructor
        · rintro ⟨w, h⟩; exact absurd rfl ((extract_succ_ok hx.here h).1 s)
        · intro h; cases h; exact absurd rfl hv
      | union c fs => exact absurd rfl (hu.here c fs)
      | leaf c k =>
        rw [extract_succ_iff hx.here (by simp) hv]
        exact ⟨fun _ => .leaf, fun _ => ⟨v, rfl⟩⟩
      | sequence c item a b u =>
        rw [extract_succ_iff hx.here (by simp) hv]
        have key : ∀ l, (v = .list l ∨ v = .tuple l) →
            ((∃ out, extractItems env (extract env o true [] n) item l = .ok out) ↔ Extractable env true (.sequence c item a b u) v) := by
          intro l hl
          have hd : ∀ x ∈ l, x.depth < v.depth := by
            intro x hx
            have := depthL_mem hx
            rcases hl with rfl | rfl <;> simp only [Val.depth] <;> omega
          rw [extractItems_ok fun g hg x _ => hne g (.item hg) x]
          constructor
          · rintro ⟨h1, h2⟩
            exact .sequence hl h1 fun g hg x hx => (ih g (.item hg) x (hd x hx)).1 (h2 g hg x hx)
          · intro h
            cases h with
            | null => exact absurd rfl hv
            | sequence hl' h1 h2 =>
              have : ∀ l', (v = .list l' ∨ v = .tuple l') → l' = l := by
                intro l' hl'
                rcases hl with rfl | rfl <;> rcases hl' with h | h <;> cases h <;> rfl
              obtain rfl := this _ hl'
              exact ⟨h1, fun g hg x hx => (ih g (.item hg) x (hd x hx)).2 (h2 g hg x hx)⟩
        by_cases hl : ∃ l, v = .list l ∨ v = .tuple l
        · obtain ⟨l, hl⟩ := hl
          rw [← key l hl]
          rcases hl with rfl | rfl <;> exact mapOk_iff
        · have : extractSequence env (extract env o true [] n) item v = .error .cannotExtract := by
            cases v <;> first | rfl | exact absurd ⟨_, .inl rfl⟩ hl | exact absurd ⟨_, .inr rfl⟩ hl
          simp only [extractBody, this, reduceCtorEq, exists_false, false_iff]
          intro h
          cases h with
          | null => exact hv rfl
          | sequence h _ _ => exact hl ⟨_, h⟩
      | map c k value r =>
        rw [extract_succ_iff hx.here (by simp) hv]
        cases v with
        | dict d =>
          simp only [extractBody, extractMap, mapOk_iff]
          have hd : ∀ e ∈ d, e.2.depth < (Val.dict d).depth := by
            intro e he
            have := (depthD_mem he).2
            simp only [Val.depth]; omega
          rw [extractEntries_ok fun g hg x _ => hne g (.value hg) x.2]
          constructor
          · rintro ⟨h1, h2⟩
            exact .map h1 fun g hg x hx => (ih g (.value hg) x.2 (hd x hx)).1 (h2 g hg x hx)
          · intro h
            cases h with
            | map h1 h2 => exact ⟨h1, fun g hg x hx => (ih g (.value hg) x.2 (hd x hx)).2 (h2 g hg x hx)⟩
        | none => exact absurd rfl hv
        | _ =>
          constructor
          · rintro ⟨w, h⟩; simp [extractBody, extractMap] at h
          · intro h; cases h
      | tuple c fs =>
        rw [extract_succ_iff hx.here (by simp) hv]
        have key : ∀ l, (v = .list l ∨ v = .tuple l) →
            ((∃ out, extractSlots env (extract env o true [] n) fs l = .ok out) ↔ Extractable env true (.tuple c fs) v) := by
          intro l hl
          have hd : ∀ x ∈ l, x.depth < v.depth := by
            intro x hx
            have := depthL_mem hx
            rcases hl with rfl | rfl <;> simp only [Val.depth] <;> omega
          rw [extractSlots_ok fun p hp g hg => hne g (.tuple (List.of_mem_zip hp).1 hg) p.2]
          constructor
          · rintro ⟨h0, h1, h2⟩
            exact .tuple hl h0 h1 fun p hp g hg =>
              (ih g (.tuple (List.of_mem_zip hp).1 hg) p.2 (hd _ (List.of_mem_zip hp).2)).1 (h2 p hp g hg)
          · intro h
            cases h with
            | null => exact absurd rfl hv
            | tuple hl' h0 h1 h2 =>
              have : ∀ l', (v = .list l' ∨ v = .tuple l') → l' = l := by
                intro l' hl'
                rcases hl with rfl | rfl <;> rcases hl' with h | h <;> cases h <;> rfl
              obtain rfl := this _ hl'
              exact ⟨h0, h1, fun p hp g hg =>
                (ih g (.tuple (List.of_mem_zip hp).1 hg) p.2 (hd _ (List.of_mem_zip hp).2)).2 (h2 p hp g hg)⟩
        by_cases hl : ∃ l, v = .list l ∨ v = .tuple l
        · obtain ⟨l, hl⟩ := hl
          rw [← key l hl]
          rcases hl with rfl | rfl <;> exact mapOk_iff
        · have : extractTuple env (extract env o true [] n) fs v = .error .cannotExtract := by
            cases v <;> first | rfl | exact absurd ⟨_, .inl rfl⟩ hl | exact absurd ⟨_, .inr rfl⟩ hl
          simp only [extractBody, this, reduceCtorEq, exists_false, false_iff]
          intro h
          cases h with
          | null => exact hv rfl
          | tuple h _ _ => exact hl ⟨_, h⟩
      | «structure» c defn s ko =>
        rw [extract_succ_iff hx.here (by simp) hv]
        cases v with
        | dict d =>
          simp only [extractBody, extractPlain, mapOk_iff]
          have hch := fun (e : Str × Field) (he : e ∈ defn) g hg => Child.member (env := env) (c := c) (s := s) (ko := ko) (n := e.1) (g := g) he hg
          rw [extractMembers_ok fun e he x _ g hg => hne g (hch e he g hg) x]
          constructor
          · rintro ⟨h1, h2⟩
            exact .structure h1 fun e he x hx hxn g hg => (ih g (hch e he g hg) x (given_depth hx)).1 (h2 e he x hx hxn g hg)
          · intro h
            cases h with
            | «structure» h1 h2 =>
              exact ⟨h1, fun e he x hx hxn g hg => (ih g (hch e he g hg) x (given_depth hx)).2 (h2 e he x hx hxn g hg)⟩
        | none => exact absurd rfl hv
        | _ =>
          constructor
          · rintro ⟨w, h⟩; simp [extractBody, extractPlain] at h
          · intro h; cases h
      | poly c disc vs s ko =>
        rw [extract_succ_iff hx.here (by simp) hv]
        cases v with
        | dict d =>
          simp only [extractBody, extractPoly, getMember, dictGet_str_eq_given]
          cases hid : given d (disc.name.getD []) with
          | none =>
            constructor
            · rintro ⟨w, h⟩; simp at h
            · intro h
              cases h with
              | variant h _ _ _ _ _ => rw [hid] at h; cases h
              | nothing _ h _ _ => rw [hid] at h; cases h
          | some id =>
            by_cases ht : id.truthy = true
            · simp only [ht, if_true, except_bind_eq_ok]
              constructor
              · rintro ⟨w, defn, hdef, hw⟩
                rw [variantAt_ok] at hdef
                obtain ⟨i, hi, -⟩ := variantGet_mem' hdef.2
                have hch := fun (e : Str × Field) (he : e ∈ defn) g hg => Child.variant (env := env) (c := c) (d := disc) (s := s) (ko := ko) (n := e.1) (g := g) hi he hg
                obtain ⟨h1, h2⟩ := (extractMembers_ok fun e he x _ g hg => hne g (hch e he g hg) x).1 (mapOk_iff.1 ⟨w, hw⟩)
                refine .variant hid ht hdef.1 (variantIn_eq vs id ▸ hdef.2) h1 fun e he x hx hxn g hg =>
                  (ih g (hch e he g hg) x (given_depth hx)).1 (h2 e he x hx hxn g hg)
              · intro h
                cases h with
                | variant hid' _ hh hdef h1 h2 =>
                  rw [hid] at hid'; cases hid'
                  rw [variantIn_eq] at hdef
                  obtain ⟨i, hi, -⟩ := variantGet_mem' hdef
                  have hch := fun (e : Str × Field) (he : e ∈ _) g hg => Child.variant (env := env) (c := c) (d := disc) (s := s) (ko := ko) (n := e.1) (g := g) hi he hg
                  obtain ⟨out, hout⟩ := (extractMembers_ok (o := o) fun e he x _ g hg => hne g (hch e he g hg) x).2 ⟨h1, fun e he x hx hxn g hg =>
                    (ih g (hch e he g hg) x (given_depth hx)).2 (h2 e he x hx hxn g hg)⟩
                  exact ⟨_, _, variantAt_ok.2 ⟨hh, hdef⟩, by rw [hout]; rfl⟩
                | nothing _ hid' hf _ => rw [hid] at hid'; cases hid'; rw [ht] at hf; cases hf
            · simp only [ht, Bool.false_eq_true, if_false, mapOk_iff]
              rw [Bool.not_eq_true] at ht
              constructor
              · rintro ⟨u, h⟩
                exact .nothing rfl hid ht (extractIdentities_ok.1 h)
              · intro h
                cases h with
                | variant hid' ht' _ _ _ _ => rw [hid] at hid'; cases hid'; rw [ht'] at ht; cases ht
                | nothing _ _ _ h => exact ⟨(), extractIdentities_ok.2 h⟩
        | none => exact absurd rfl hv
        | _ =>
          constructor
          · rintro ⟨w, h⟩; simp [extractBody, extractPoly] at h
          · intro h; cases h

/-! ### Extracting twice -/

theorem extractBody_ne_none {env : Env} {o : Outer} {strict : Bool} {rec : Ext} {f : Field} {v w : Val}
    (hu : NotUnion f) (hv : v ≠ .none) (h : extractBody env o strict rec f v = .ok w) : w ≠ .none := by
  have hm : ∀ {α : Type} {x : Except Exn α} {f : α → Val}, (∀ a, f a ≠ .none) → x.map f = .ok w → w ≠ .none := by
    intro α x f hf h
    obtain ⟨a, _, rfl⟩ := except_map_eq_ok.1 h
    exact hf a
  cases f with
  | leaf c k => simp only [extractBody, Except.ok.injEq] at h; exact h ▸ hv
  | undef s => simp [extractBody] at h
  | union c fs => exact absurd rfl (hu c fs)
  | sequence c item a b u => cases v <;> simp only [extractBody, extractSequence, reduceCtorEq] at h <;> exact hm (by simp) h
  | map c k value r => cases v <;> simp only [extractBody, extractMap, reduceCtorEq] at h <;> exact hm (by simp) h
  | tuple c fs => cases v <;> simp only [extractBody, extractTuple, reduceCtorEq] at h <;> exact hm (by simp) h
  | «structure» c defn s ko =>
    simp only [extractBody, extractPlain] at h
    split at h
    · exact hm (by simp) h
    · split at h
      · cases h
      · exact hm (by simp) h
  | poly c disc vs s ko =>
    simp only [extractBody, extractPoly] at h
    have hgo : ∀ x : Except Exn Val, x = (match getMember o v (.str (disc.name.getD [])) with
        | .error e => Except.error (Exn.py e)
        | .ok id => if id.truthy then (variantAt vs id >>= fun defn => (extractMembers env o rec v defn).map Val.dict)
          else (extractIdentities o v vs).map fun _ => Val.dict []) → x = .ok w → w ≠ .none := by
      intro x hx h
      rw [h] at hx
      split at hx
      · cases hx
      · split at hx
        · rw [eq_comm, except_bind_eq_ok] at hx
          obtain ⟨_, _, hx⟩ := hx
          exact hm (by simp) hx
        · exact hm (by simp) hx.symm
    split at h
    · exact hgo _ rfl h
    · split at h
      · cases h
      · exact hgo _ rfl h

theorem extract_ne_none {env : Env} {o : Outer} {strict : Bool} {params : Params} {n : Nat} {f : Field} {v w : Val}
    (hx : NoExtractor f) (hu : NotUnion f) (hv : v ≠ .none) (h : extract env o strict params n f v = .ok w) : w ≠ .none := by
  cases n with
  | zero => simp [extract] at h
  | succ n =>
    obtain ⟨-, -, ⟨h, -⟩ | ⟨-, h⟩⟩ := extract_succ_ok hx h
    · exact absurd h hv
    · exact extractBody_ne_none hu hv h

section
variable {env : Env} {o : Outer} {rec : Ext}

theorem extractItems_twice {item : Field} {l out : List Val}
    (hne : ∀ g, resolve env item = some g → ∀ v ∈ l, rec g v ≠ .error .excluded)
    (hr : ∀ g, resolve env item = some g → ∀ v ∈ l, ∀ w, rec g v = .ok w → rec g w = .ok w)
    (h : extractItems env rec item l = .ok out) : extractItems env rec item out = .ok out := by
  induction l generalizing out with
  | nil => simp only [extractItems, Except.ok.injEq] at h; subst h; rfl
  | cons v r ih =>
    simp only [extractItems, except_bind_eq_ok, except_pure] at h
    obtain ⟨x, hx, r', hr', h⟩ := h
    obtain ⟨g, w, hg, rfl, hw⟩ := childOk (fun g hg => hne g hg v (List.mem_cons_self ..)) hx
    simp only [Except.ok.injEq] at h; subst h
    have ih := ih (fun g hg v hv => hne g hg v (List.mem_cons_of_mem _ hv)) (fun g hg v hv => hr g hg v (List.mem_cons_of_mem _ hv)) hr'
    simp [extractItems, childOk_of hg (hr g hg v (List.mem_cons_self ..) w hw), ih]

theorem extractEntries_twice {item : Field} {d out : List (Val × Val)}
    (hne : ∀ g, resolve env item = some g → ∀ e ∈ d, rec g e.2 ≠ .error .excluded)
    (hr : ∀ g, resolve env item = some g → ∀ e ∈ d, ∀ w, rec g e.2 = .ok w → rec g w = .ok w)
    (h : extractEntries env rec item d = .ok out) : extractEntries env rec item out = .ok out := by
  induction d generalizing out with
  | nil => simp only [extractEntries, Except.ok.injEq] at h; subst h; rfl
  | cons v r ih =>
    simp only [extractEntries, except_bind_eq_ok, except_pure] at h
    obtain ⟨x, hx, r', hr', h⟩ := h
    obtain ⟨g, w, hg, rfl, hw⟩ := childOk (fun g hg => hne g hg v (List.mem_cons_self ..)) hx
    simp only [Except.ok.injEq] at h; subst h
    have ih := ih (fun g hg v hv => hne g hg v (List.mem_cons_of_mem _ hv)) (fun g hg v hv => hr g hg v (List.mem_cons_of_mem _ hv)) hr'
    simp [extractEntries, childOk_of hg (hr g hg v (List.mem_cons_self ..) w hw), ih]

theorem extractSlots_twice {fs : List Field} {l out : List Val}
    (hne : ∀ p ∈ fs.zip l, ∀ g, resolve env p.1 = some g → rec g p.2 ≠ .error .excluded)
    (hr : ∀ p ∈ fs.zip l, ∀ g, resolve env p.1 = some g → ∀ w, rec g p.2 = .ok w → rec g w = .ok w)
    (h : extractSlots env rec fs l = .ok out) : extractSlots env rec fs out = .ok out := by
  induction fs generalizing l out with
  | nil => simp only [extractSlots, Except.ok.injEq] at h; subst h; rfl
  | cons f fs ih =>
    cases l with
    | nil => simp [extractSlots] at h
    | cons v r =>
      simp only [extractSlots, except_bind_eq_ok, except_pure] at h
      obtain ⟨x, hx, r', hr', h⟩ := h
      rw [List.zip_cons_cons] at hne hr
      obtain ⟨g, w, hg, rfl, hw⟩ := childOk (fun g hg => hne (f, v) (List.mem_cons_self ..) g hg) hx
      simp only [Except.ok.injEq] at h; subst h
      have ih := ih (fun p hp => hne p (List.mem_cons_of_mem _ hp)) (fun p hp => hr p (List.mem_cons_of_mem _ hp)) hr'
      simp [extractSlots, childOk_of hg (hr (f, v) (List.mem_cons_self ..) g hg w hw), ih]

theorem given_sublist_none {out : List (Val × Val)} {defn : List (Str × Field)} {name : Str}
    (h : (out.map (·.1)).Sublist (defn.map fun e => Val.str e.1)) (hn : name ∉ defn.map (·.1)) : given out name = none := by
  rw [← dictGet_str_eq_given, dictGet_str_none]
  intro hm
  have := h.subset hm
  simp only [List.mem_map] at this
  obtain ⟨e, he, hs⟩ := this
  cases hs
  exact hn (List.mem_map.2 ⟨e, he, rfl⟩)

theorem extractMembers_twice {d : List (Val × Val)} {defn : List (Str × Field)} {out : List (Val × Val)}
    (hnd : (defn.map (·.1)).Nodup)
    (hne : ∀ e ∈ defn, ∀ g, resolve env e.2 = some g → ∀ v, given d e.1 = some v → rec g v ≠ .error .excluded)
    (hnn : ∀ e ∈ defn, ∀ g, resolve env e.2 = some g → ∀ v w, given d e.1 = some v → v ≠ .none → rec g v = .ok w → w ≠ .none)
    (hr : ∀ e ∈ defn, ∀ g, resolve env e.2 = some g → ∀ v w, given d e.1 = some v → v ≠ .none → rec g v = .ok w → rec g w = .ok w)
    (h : extractMembers env o rec (.dict d) defn = .ok out) (D : List (Val × Val))
    (hD : ∀ name ∈ defn.map (·.1), given D name = given out name) :
    extractMembers env o rec (.dict D) defn = .ok out := by
  induction defn generalizing out with
  | nil => simp only [extractMembers, Except.ok.injEq] at h; subst h; rfl
  | cons e r ih =>
    obtain ⟨nm, f⟩ := e
    rw [List.map_cons, List.nodup_cons] at hnd
    have ih := fun out => @ih out hnd.2 (fun e he => hne e (List.mem_cons_of_mem _ he)) (fun e he => hnn e (List.mem_cons_of_mem _ he))
      (fun e he => hr e (List.mem_cons_of_mem _ he))
    simp only [extractMembers, except_bind_eq_ok] at h
    obtain ⟨m, hm, h⟩ := h
    cases m with
    | none =>
      have hk := given_sublist_none (extractMembers_keys h) hnd.1
      have hDn : memberValue o (.dict D) (.str nm) = .ok none := by
        rw [memberValue_dict_none, dictGet_str_eq_given, hD nm (List.mem_cons_self ..), hk]
        exact .inl rfl
      simp only [extractMembers, hDn, except_bind_ok]
      exact ih out h fun name hn => hD name (List.mem_cons_of_mem _ hn)
    | some v =>
      rw [memberValue_dict_some, dictGet_str_eq_given] at hm
      simp only [except_bind_eq_ok, except_pure] at h
      obtain ⟨x, hx, r', hr', h⟩ := h
      obtain ⟨g, w, hg, rfl, hw⟩ := childOk (fun g hg => hne _ (List.mem_cons_self ..) g hg v hm.1) hx
      simp only [Except.ok.injEq] at h; subst h
      have hDn : memberValue o (.dict D) (.str nm) = .ok (some w) := by
        rw [memberValue_dict_some, dictGet_str_eq_given, hD nm (List.mem_cons_self ..), given_cons_str]
        exact ⟨by simp, hnn _ (List.mem_cons_self ..) g hg v w hm.1 hm.2 hw⟩
      have hrest := ih r' hr' fun name hn => by
        rw [hD name (List.mem_cons_of_mem _ hn), given_cons_str, if_neg]
        rintro rfl; exact hnd.1 hn
      simp [extractMembers, hDn, childOk_of hg (hr _ (List.mem_cons_self ..) g hg v w hm.1 hm.2 hw), hrest]

end

/-- C30. Extracting again from what was extracted gives the same, for schemas without unions and extractors and
subjects in which no polymorphic structure has a falsy identity. -/
theorem C30_again (env : Env) (o : Outer) (n : Nat) (f : Field) (v w : Val)
    (hx : Everywhere env NoExtractor f) (hu : Everywhere env NotUnion f) (hg : Everywhere env GoodNames f)
    (hs : Extractable env false f v) (h : extract env o true [] n f v = .ok w) :
    extract env o true [] n f w = .ok w := by
  induction n generalizing f v w with
  | zero => simp [extract] at h
  | succ n ih =>
    obtain ⟨hf, -, ⟨rfl, rfl⟩ | ⟨hv, hb⟩⟩ := extract_succ_ok hx.here h
    · exact h
    · refine extract_succ_of hx.here hf (excluded_nil o f) (.inr ⟨extractBody_ne_none hu.here hv hb, ?_⟩)
      have hne : ∀ g, Child env f g → ∀ x, extract env o true [] n g x ≠ .error .excluded :=
        fun g hg x => extract_not_excluded (hu.child hg).here
      have hnn : ∀ g, Child env f g → ∀ x w, x ≠ .none → extract env o true [] n g x = .ok w → w ≠ .none :=
        fun g hg x w => extract_ne_none (hx.child hg).here (hu.child hg).here
      have ih : ∀ g, Child env f g → ∀ x w, Extractable env false g x → extract env o true [] n g x = .ok w →
          extract env o true [] n g w = .ok w :=
        fun g hc x w => ih g x w (hx.child hc) (hu.child hc) (hg.child hc)
      cases hs with
      | null => exact absurd rfl hv
      | leaf => simp only [extractBody, Except.ok.injEq] at hb ⊢
      | @sequence c item a b u l v hl h1 h2 =>
        have hb' : (extractItems env (extract env o true [] n) item l).map Val.list = .ok w := by
          rcases hl with rfl | rfl <;> exact hb
        obtain ⟨out, hout, rfl⟩ := except_map_eq_ok.1 hb'
        have := extractItems_twice (fun g hg v _ => hne g (.item hg) v)
          (fun g hg v hv w hw => ih g (.item hg) v w (h2 g hg v hv) hw) hout
        show (extractItems _ _ _ _).map Val.list = _
        rw [this]; rfl
      | @map c key value req d h1 h2 =>
        obtain ⟨out, hout, rfl⟩ := except_map_eq_ok.1 (show (extractEntries _ _ _ _).map Val.dict = _ from hb)
        have := extractEntries_twice (fun g hg v _ => hne g (.value hg) v.2)
          (fun g hg v hv w hw => ih g (.value hg) v.2 w (h2 g hg v hv) hw) hout
        show (extractEntries _ _ _ _).map Val.dict = _
        rw [this]; rfl
      | @tuple c fs l v hl h0 h1 h2 =>
        have hb' : (extractSlots env (extract env o true [] n) fs l).map Val.tuple = .ok w := by
          rcases hl with rfl | rfl <;> exact hb
        obtain ⟨out, hout, rfl⟩ := except_map_eq_ok.1 hb'
        have hch := fun p (hp : p ∈ fs.zip l) g hg => Child.tuple (env := env) (c := c) (g := g) (List.of_mem_zip hp).1 hg
        have := extractSlots_twice (fun p hp g hg => hne g (hch p hp g hg) p.2)
          (fun p hp g hg w hw => ih g (hch p hp g hg) p.2 w (h2 p hp g hg) hw) hout
        show (extractSlots _ _ _ _).map Val.tuple = _
        rw [this]; rfl
      | @«structure» c defn s ko d h1 h2 =>
        obtain ⟨out, hout, rfl⟩ := except_map_eq_ok.1 (show (extractMembers _ _ _ _ _).map Val.dict = _ from hb)
        have hch := fun (e : Str × Field) (he : e ∈ defn) g hg => Child.member (env := env) (c := c) (s := s) (ko := ko) (n := e.1) (g := g) he hg
        have := extractMembers_twice hg.here (fun e he g hg v _ => hne g (hch e he g hg) v)
          (fun e he g hg v w _ => hnn g (hch e he g hg) v w)
          (fun e he g hg v w hv hvn hw => ih g (hch e he g hg) v w (h2 e he v hv hvn g hg) hw) hout out (fun _ _ => rfl)
        show (extractMembers _ _ _ _ _).map Val.dict = _
        rw [this]; rfl
      | @variant c disc vs s ko d id defn hid ht hh hdef h1 h2 =>
        rw [variantIn_eq] at hdef
        have hva : variantAt vs id = .ok defn := variantAt_ok.2 ⟨hh, hdef⟩
        obtain ⟨i, hi, -⟩ := variantGet_mem' hdef
        have hidn : id ≠ .none := by rintro rfl; cases ht
        simp only [extractBody, extractPoly, getMember, dictGet_str_eq_given, hid, ht, if_true, hva, except_bind_ok] at hb
        obtain ⟨out, hout, rfl⟩ := except_map_eq_ok.1 hb
        have hch := fun (e : Str × Field) (he : e ∈ defn) g hg => Child.variant (env := env) (c := c) (d := disc) (s := s) (ko := ko) (n := e.1) (g := g) hi he hg
        obtain ⟨hnd, dc, dk, hlk⟩ := hg.here _ hi
        have := extractMembers_twice hnd (fun e he g hg v _ => hne g (hch e he g hg) v)
          (fun e he g hg v w _ => hnn g (hch e he g hg) v w)
          (fun e he g hg v w hv hvn hw => ih g (hch e he g hg) v w (h2 e he v hv hvn g hg) hw) hout out (fun _ _ => rfl)
        have hmem := lookup_mem hlk
        obtain ⟨w', hw'⟩ := ((extractMembers_ok fun e he x _ g hg => hne g (hch e he g hg) x).1 ⟨_, hout⟩).2 _ hmem id hid hidn _ rfl
        have hww : w' = id := by
          cases n with
          | zero => simp [extract] at hw'
          | succ m =>
            obtain ⟨-, -, ⟨h, -⟩ | ⟨-, h⟩⟩ := extract_succ_ok (hx.child (hch _ hmem _ rfl)).here hw'
            · exact absurd h hidn
            · simp only [extractBody, Except.ok.injEq] at h; exact h.symm
        subst hww
        have hgo : given out (disc.name.getD []) = some w' :=
          (extractMembers_given hnd hout _ _).2 ⟨_, _, w', hlk, hid, hidn, rfl, hw'⟩
        simp only [extractBody, extractPoly, getMember, dictGet_str_eq_given, hgo, ht, if_true, hva, except_bind_ok, this]
        rfl
      | nothing hft _ _ _ => exact absurd hft (by decide)

/-! ### Where it fails -/

namespace Ex

/-- No attributes, extractors or instantiators. -/
def outer : Outer where
  attr _ _ := none
  ext _ _ v := .ok v
  inst _ _ v _ := .ok v
  getattr _ _ := .error .attributeError

def unionAB : Field := .union {} [.sequence {} (.structure {} [(c!"a", .sequence {} int none none false)] true []) none none false,
  .sequence {} (.structure {} [(c!"b", int)] true []) none none false]

def polyKind : Field := .poly {} (.leaf { name := some c!"kind", required := true } (.integer none none))
  [(.int 1, [(c!"x", int), (c!"kind", .leaf { name := some c!"kind", required := true, constant := .int 1 } (.integer none none))])] true []

end Ex

/-- C30. With unions, extracting again may fail to give the same: a member whose shape does not fit is dropped by
one alternative, and the first alternative then takes the rest.  Here `[{'a': 5, 'b': 1}]` first gives
`[{'b': 1}]`, which then gives `[{}]`. -/
theorem C30_union_again :
    extract Ex.env Ex.outer true [] 5 Ex.unionAB (.list [.dict [(.str c!"a", .int 5), (.str c!"b", .int 1)]]) =
      .ok (.list [.dict [(.str c!"b", .int 1)]]) ∧
    extract Ex.env Ex.outer true [] 5 Ex.unionAB (.list [.dict [(.str c!"b", .int 1)]]) = .ok (.list [.dict []]) :=
  ⟨rfl, rfl⟩

/-- C30. A polymorphic structure with a falsy identity (here 0) loses everything without an error, and extracting again
raises KeyError. -/
theorem C30_falsy_identity :
    extract Ex.env Ex.outer true [] 5 Ex.polyKind (.dict [(.str c!"kind", .int 0), (.str c!"x", .int 1)]) = .ok (.dict []) ∧
    extract Ex.env Ex.outer true [] 5 Ex.polyKind (.dict []) = .error (.py .keyError) := by
  refine ⟨?_, ?_⟩ <;>
    simp [extract, extractStep, Ex.polyKind, excluded, Val.isNone, applyExtractor, extractor, Field.common?, extractBody, extractPoly,
      getMember, dictGet, pyEq, Field.name, Val.truthy, extractIdentities, memberValue, Except.map, numOf]

example : Everywhere Ex.env NoExtractor Ex.polyKind ∧ Everywhere Ex.env NotUnion Ex.polyKind ∧ Everywhere Ex.env GoodNames Ex.polyKind := by
  have : Everywhere Ex.env (fun f => NoExtractor f ∧ NotUnion f ∧ GoodNames f) Ex.polyKind := by
    refine .mk' ⟨?_, ?_, ?_⟩ ?_
    · intro c hc; cases hc; rfl
    · intro c fs h; cases h
    · intro v hv
      simp only [List.mem_singleton] at hv; subst hv
      exact ⟨by decide, _, _, rfl⟩
    · intro g hg
      cases hg with
      | disc => exact .leaf ⟨by intro c hc; cases hc; rfl, (by intro c fs h; cases h), trivial⟩
      | variant hi he hr =>
        simp only [List.mem_singleton] at hi; cases hi
        rcases List.mem_cons.1 he with h | he
        · cases h; cases hr
          exact .leaf ⟨by intro c hc; cases hc; rfl, (by intro c fs h; cases h), trivial⟩
        · simp only [List.mem_singleton] at he; cases he; cases hr
          exact .leaf ⟨by intro c hc; cases hc; rfl, (by intro c fs h; cases h), trivial⟩
  exact ⟨fun g hg => (this g hg).1, fun g hg => (this g hg).2.1, fun g hg => (this g hg).2.2⟩

example : Extractable Ex.env false Ex.polyKind (.dict [(.str c!"kind", .int 1), (.str c!"y", .none), (.str c!"x", .int 7)]) := by
  refine .variant (id := .int 1) rfl rfl rfl (defn := [(c!"x", Ex.int), (c!"kind", .leaf { name := some c!"kind", required := true, constant := .int 1 } (.integer none none))]) ?_ ?_ ?_
  · simp [variantIn, pyEq, numOf, numEq]
  · intro e he x hx hxn
    rcases List.mem_cons.1 he with rfl | he
    · exact ⟨_, rfl⟩
    · simp only [List.mem_singleton] at he; subst he; exact ⟨_, rfl⟩
  · intro e he x hx hxn g hg
    rcases List.mem_cons.1 he with rfl | he
    · cases hg; exact .leaf
    · simp only [List.mem_singleton] at he; subst he; cases hg; exact .leaf

end Scheme
