import Verif.Spec.Schema
import Verif.Lemmas.Basic

namespace Scheme

theorem formatPieces_isSome (params : List (Str × Str)) (ps : List Piece)
    (h : ∀ p ∈ ps, match p with | .lit _ => True | .ref k => (params.lookup k).isSome = true) :
    (formatPieces params ps).isSome = true := by
  induction ps with
  | nil => rfl
  | cons p r ih =>
    have hr := ih (fun q hq => h q (List.mem_cons_of_mem _ hq))
    cases p with
    | lit s => simpa [formatPieces] using hr
    | ref k =>
      have hk := h (.ref k) (List.mem_cons_self ..)
      simp only at hk
      obtain ⟨s, hs⟩ := Option.isSome_iff_exists.1 hk
      simpa [formatPieces, hs] using hr

theorem lookup_append_isSome (l : List (Str × Str)) (k : Str) (v : Str) :
    ((l ++ [(k, v)]).lookup k).isSome = true := by
  induction l with
  | nil => simp
  | cons a r ih =>
    obtain ⟨x, y⟩ := a
    simp only [List.cons_append, List.lookup]
    cases h : (k == x) <;> simp [ih]

theorem lookup_append_left_isSome (l l' : List (Str × Str)) (k : Str)
    (h : (l.lookup k).isSome = true) : ((l ++ l').lookup k).isSome = true := by
  induction l with
  | nil => simp [List.lookup] at h
  | cons a r ih =>
    obtain ⟨x, y⟩ := a
    simp only [List.cons_append, List.lookup] at h ⊢
    cases hk : (k == x)
    · rw [hk] at h; exact ih h
    · rfl

/-- Whether all references of a template are `field` or supplied. -/
def refsOk (keys : List Str) (ps : List Piece) : Bool :=
  ps.all fun p => match p with
    | .lit _ => true
    | .ref k => k == c!"field" || keys.contains k

theorem mkErr_of_entry (f : Field) (cls : ErrCls) (anc : List Str) (v : Val) (tok : Str)
    (params : List (Str × Str)) (e : FErr)
    (he : f.errorTable.find? (·.token == tok) = some e)
    (hr : refsOk (params.map (·.1)) e.message = true) :
    ∃ title msg, mkErr f cls anc v tok params =
      .structural ⟨cls, anc, [errItem tok title msg], .none, v⟩ := by
  have htok : e.token = tok := by
    have := List.find?_some he
    simpa using this
  unfold mkErr
  rw [he]
  simp only
  generalize hn : displayName f = fname
  have hs : (formatPieces (params ++ [(c!"field", fname)]) e.message).isSome = true := by
    apply formatPieces_isSome
    intro p hp
    have := List.all_eq_true.1 hr p hp
    cases p with
    | lit s => trivial
    | ref k =>
      simp only [Bool.or_eq_true] at this
      show ((params ++ [(c!"field", fname)]).lookup k).isSome = true
      rcases this with h | h
      · have : k = c!"field" := by simpa using h
        subst this
        exact lookup_append_isSome _ _ _
      · apply lookup_append_left_isSome
        have hk : k ∈ params.map (·.1) := by simpa using h
        clear h hp hr he hn
        induction params with
        | nil => simp at hk
        | cons a r ih =>
          obtain ⟨x, y⟩ := a
          simp only [List.lookup]
          cases hx : (k == x)
          · simp only
            apply ih
            simp only [List.map_cons, List.mem_cons] at hk
            rcases hk with h | h
            · subst h; simp at hx
            · exact h
          · simp
  obtain ⟨m, hm⟩ := Option.isSome_iff_exists.1 hs
  rw [hm]
  exact ⟨e.title, m, by rw [htok]; rfl⟩

theorem customErrors_fieldOnly (f : Field) (hp : plainErrors f) : ∀ e ∈ f.customErrors, fieldOnly e := by
  intro e he
  unfold plainErrors at hp
  have key : ∀ {c : Common}, f.common? = some c → e ∈ c.errors.reverse → fieldOnly e := by
    intro c hc hm; rw [hc] at hp; exact hp e (List.mem_reverse.1 hm)
  unfold Field.customErrors at he
  split at he
  · simp at he
  · split at he
    · exact key ‹_› he
    · simp at he

/-- A built-in error message whose parameters are supplied is always produced, whatever field-only
messages the user overrides it with. -/
theorem mkErr_spec (f : Field) (cls : ErrCls) (anc : List Str) (v : Val) (tok : Str)
    (params : List (Str × Str)) (e : FErr) (hp : plainErrors f)
    (he : f.classErrors.find? (·.token == tok) = some e)
    (hr : refsOk (params.map (·.1)) e.message = true) :
    ∃ title msg, mkErr f cls anc v tok params =
      .structural ⟨cls, anc, [errItem tok title msg], .none, v⟩ := by
  cases hcu : f.customErrors.find? (·.token == tok) with
  | none =>
    apply mkErr_of_entry (e := e) (hr := hr)
    rw [Field.errorTable, List.find?_append, hcu, he]; rfl
  | some e' =>
    apply mkErr_of_entry (e := e')
    · rw [Field.errorTable, List.find?_append, hcu]; rfl
    · have hm := customErrors_fieldOnly f hp e' (List.mem_of_find?_eq_some hcu)
      rw [refsOk, List.all_eq_true]
      intro p hp
      rcases hm p hp with ⟨s, rfl⟩ | rfl
      · rfl
      · simp

theorem mkErr_nonnull (f : Field) (hf : f.common?.isSome = true) (hp : plainErrors f) (cls : ErrCls)
    (anc : List Str) (v : Val) :
    ∃ title msg, mkErr f cls anc v c!"nonnull" [] =
      .structural ⟨cls, anc, [errItem c!"nonnull" title msg], .none, v⟩ := by
  apply mkErr_spec (e := ⟨c!"nonnull", c!"null value", [.ref c!"field", .lit c!" must be a non-null value"]⟩)
    (hp := hp) (hr := by decide)
  cases f with
  | leaf c k => cases k <;> first | rfl | (rename_i m _; cases m <;> rfl)
  | undef s => simp [Field.common?] at hf
  | _ => rfl

theorem mkErr_overflow (f : Field) (hf : f.common?.isSome = true) (hp : plainErrors f) (cls : ErrCls)
    (anc : List Str) (v : Val) :
    ∃ title msg, mkErr f cls anc v c!"overflow" [] =
      .structural ⟨cls, anc, [errItem c!"overflow" title msg], .none, v⟩ := by
  apply mkErr_spec (e := ⟨c!"overflow", c!"overflow error", [.ref c!"field", .lit c!" overflowed"]⟩)
    (hp := hp) (hr := by decide)
  cases f with
  | leaf c k => cases k <;> first | rfl | (rename_i m _; cases m <;> rfl)
  | undef s => simp [Field.common?] at hf
  | _ => rfl

/-- `construct('invalid')` without parameters works for every field type but Enumeration. -/
theorem mkErr_invalid (f : Field) (hf : f.common?.isSome = true) (hp : plainErrors f)
    (he : ∀ c vals ign, f ≠ .leaf c (.enumeration vals ign)) (cls : ErrCls)
    (anc : List Str) (v : Val) :
    ∃ title msg, mkErr f cls anc v c!"invalid" [] =
      .structural ⟨cls, anc, [errItem c!"invalid" title msg], .none, v⟩ := by
  have key : ∃ e, f.classErrors.find? (·.token == c!"invalid") = some e ∧ refsOk [] e.message = true := by
    cases f with
    | leaf c k => cases k <;> first
        | exact ⟨_, rfl, rfl⟩ 
        | (rename_i m _; cases m <;> exact ⟨_, rfl, rfl⟩)
        | exact absurd rfl (he _ _ _)
    | undef s => simp [Field.common?] at hf
    | _ => exact ⟨_, rfl, rfl⟩
  obtain ⟨e, h1, h2⟩ := key
  exact mkErr_spec f cls anc v _ [] e hp h1 h2

end Scheme
