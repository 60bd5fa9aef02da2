import Verif.Spec.Tidy
import Verif.Props.Recursion

/-! C26: which exceptions escape. -/

namespace Scheme

/-- C26. Every exception escaping `process` is a StructuralError, or RecursionError, or one of the listed
causes occurs at a field and value met while processing. -/
theorem C26_every_exception_has_a_cause (env : Env) (n : Nat) (f : Field) (v : Val) (ph : Phase) (ser : Bool)
    (anc : List Str) (e : Exn) (h : process env n f v ph ser anc = .error e) :
    (∃ s, e = .structural s) ∨ e = .py .recursionError ∨
      ∃ g w, Involves env ph f v g w ∧ Cause env ph ser g w e := by
  induction n generalizing f v anc with
  | zero => cases h; exact .inr (.inl rfl)
  | succ n ih =>
    rcases process_blame h with (hs | hc) | ⟨g, w, anc', hc, he⟩
    · exact .inl hs
    · exact .inr (.inr ⟨f, v, .here, hc⟩)
    · rcases ih g w anc' he with h | h | ⟨g', w', hi, hc'⟩
      · exact .inl h
      · exact .inr (.inl h)
      · exact .inr (.inr ⟨g', w', .call hc hi, hc'⟩)

theorem Involves.reach {env : Env} {ph : Phase} {f g : Field} {v w : Val} (h : Involves env ph f v g w) :
    Reach env f g := by
  induction h with
  | here => exact .refl
  | call hc _ ih => exact .step hc.child ih

theorem validate_scalar {env : Env} {f : Field} {k : Leaf} {v x : Val} {anc : List Str} (hk : scalarLeaf k = true)
    (h : validateLeaf env f k v anc = .ok x) : hashable x = true ∧ ∀ l, x ≠ .tuple l := by
  have txt : ∀ {mn mx : Option Nat} {pat : Str → Bool} {s : Str}, validateText f mn mx pat s anc = .ok x →
      hashable x = true ∧ ∀ l, x ≠ .tuple l := by
    intro mn mx pat s h
    unfold validateText at h
    simp only at h
    split at h
    · simp at h
    · split at h
      · simp at h
      · split at h
        · cases h; simp [hashable]
        · simp at h
  unfold validateLeaf at h
  cases k <;> simp only [scalarLeaf, Bool.false_eq_true] at hk <;> simp only at h
  case binary => split at h <;> (repeat' split at h) <;> first | (cases h; simp [hashable]; done) | (simp at h; done)
  case boolean => split at h <;> (repeat' split at h) <;> first | (cases h; simp [hashable]; done) | (simp at h; done)
  case date => split at h <;> (repeat' split at h) <;> first | (cases h; simp [hashable]; done) | (simp at h; done)
  case datetime => split at h <;> (repeat' split at h) <;> first | (cases h; simp [hashable]; done) | (simp at h; done)
  case decimal => split at h <;> (repeat' split at h) <;> first | (cases h; simp [hashable]; done) | (simp at h; done)
  case float => split at h <;> (repeat' split at h) <;> first | (cases h; simp [hashable]; done) | (simp at h; done)
  case integer => split at h <;> (repeat' split at h) <;> first | (cases h; simp [hashable]; done) | (simp at h; done)
  case time => split at h <;> (repeat' split at h) <;> first | (cases h; simp [hashable]; done) | (simp at h; done)
  case token => split at h <;> (repeat' split at h) <;> first | (cases h; simp [hashable]; done) | (simp at h; done)
  case uuid => split at h <;> (repeat' split at h) <;> first | (cases h; simp [hashable]; done) | (simp at h; done)
  case email => split at h <;> first | exact txt h | (simp at h; done)
  case text => split at h <;> first | exact txt h | (simp at h; done)

theorem scalar_returns {env : Env} {ph : Phase} {ser : Bool} {c : Common} {k : Leaf} {v x : Val}
    (hk : scalarLeaf k = true) (h : Returns env ph ser (.leaf c k) v x) :
    hashable x = true ∧ ∀ l, x ≠ .tuple l := by
  obtain ⟨m, anc, h⟩ := h
  cases m with
  | zero => simp [process] at h
  | succ m =>
    rcases processLeaf_ok.1 h with ⟨_, rfl⟩ | ⟨_, v1, v2, v3, _, _, _, h3, h4⟩
    · simp [hashable]
    · have hv := validate_scalar hk h3
      unfold encodeStep at h4
      split at h4
      · unfold serOut at h4
        split at h4
        · simp at h4
        · unfold serializeLeaf at h4
          cases k <;> simp only [scalarLeaf, Bool.false_eq_true] at hk <;> simp only at h4 <;>
            first
            | (cases h4; exact hv)
            | (split at h4 <;> first | (cases h4; simp [hashable]; done) | (simp at h4; done) |
                (split at h4 <;> first | (cases h4; simp [hashable]; done) | (simp at h4; done)))
      · cases h4; exact hv

/-- C26. With a schema that is `Tidy` throughout, and no dict keyed by tuples in the candidate, nothing but
StructuralError (with its subclasses) escapes, except for RecursionError. -/
theorem C26_tidy_schema (env : Env) (n : Nat) (f : Field) (v : Val) (ph : Phase) (ser : Bool) (anc : List Str)
    (hf : Everywhere env (Tidy env ph ser) f) (hk : NoTupleKeys env ph f v) (e : Exn)
    (h : process env n f v ph ser anc = .error e) :
    (∃ s, e = .structural s) ∨ e = .py .recursionError := by
  rcases C26_every_exception_has_a_cause env n f v ph ser anc e h with h | h | ⟨g, w, hi, hc⟩
  · exact .inl h
  · exact .inr h
  · exfalso
    obtain ⟨h1, ⟨c', hc', hpre⟩, h3, h4, h5⟩ := hf g hi.reach
    cases hc with
    | placeholder => cases hc'
    | message hp => exact hp h1
    | undefinedPart hp hr => obtain ⟨g, hg⟩ := h3 _ hp; rw [hg] at hr; cases hr
    | undefinedMember _ _ hd hr _ =>
      obtain ⟨g, c, hg, hc⟩ := h4 _ _ hd
      rw [hg] at hr; simp [hc] at hr
    | absentPlaceholder hd hr =>
      obtain ⟨g, c, hg, hc⟩ := h4 _ _ hd
      rw [hg] at hr; simp [hc] at hr
    | enumeration hx =>
      cases hc'
      rcases hx with ⟨hx, _⟩ | ⟨h, x, e, hx, _⟩
      · exact hx h5
      · rw [hpre] at hx; cases hx
    | base64 ha hb _ => exact h5 ⟨ha, hb⟩
    | dateBounds hb _ => obtain ⟨rfl, rfl⟩ := h5; simp at hb
    | zone hz => obtain ⟨d', hd⟩ := h5 _ _; rw [hd] at hz; cases hz
    | decimalNaN hb _ => obtain ⟨rfl, rfl⟩ := h5; simp at hb
    | errorPair ha hb _ => exact h5 ⟨ha, hb⟩
    | surrogateIdentity hv => exact hv h5.1
    | surrogateIn _ _ hx => obtain ⟨x, hx'⟩ := h5.2.1 _; rw [hx'] at hx; cases hx
    | surrogateOut _ _ hx => obtain ⟨x, hx'⟩ := h5.2.2 _; rw [hx'] at hx; cases hx
    | describe _ _ hx => obtain ⟨x, hx'⟩ := h5 _; rw [hx'] at hx; cases hx
    | unique _ _ hr hret hh =>
      obtain ⟨c, k, rfl, hk⟩ := h5
      cases hr
      rw [(scalar_returns hk hret).1] at hh; cases hh
    | mapKey hin hm hk' =>
      cases hc'
      obtain ⟨⟨c, k, rfl, hsc⟩, _⟩ := h5
      unfold containerInput at hin
      rw [hpre] at hin
      cases hin
      rcases hk' with ⟨rfl, l, hl, _⟩ | ⟨hret, hbad⟩
      · exact hk _ _ hi _ rfl _ hm l hl
      · have := scalar_returns hsc hret
        rcases hbad with ⟨l, hl, _⟩ | hh
        · exact this.2 l hl
        · rw [this.1] at hh; cases hh
    | requiredKey hm hh =>
      rename_i kf _ _ _
      cases kf with
      | none => rw [h5 _ hm] at hh; cases hh
      | some kf => rw [h5.2 _ hm] at hh; cases hh
    | identity hret hh =>
      obtain ⟨_, c, k, rfl, hk⟩ := h5
      rw [(scalar_returns hk hret).1] at hh; cases hh
    | polyOrder hko => exact hko h5.1
    | keyOrder hn hm => obtain ⟨p, hp⟩ := h5 _ hn; exact hm p hp
    | polyKeyOrder _ hn _ => rw [h5.1] at hn; cases hn
    | preRaises hc _ hp _ => rw [hc] at hc'; cases hc'; rw [hpre] at hp; cases hp
    | preType hc _ hp _ _ => rw [hc] at hc'; cases hc'; rw [hpre] at hp; cases hp
    | preAttr hc _ hp _ _ => rw [hc] at hc'; cases hc'; rw [hpre] at hp; cases hp

/-! Each cause really occurs: one schema and candidate per kind, each raising the named exception. -/

namespace Ex

def run (f : Field) (v : Val) (ph : Phase := .inbound) (ser : Bool := false) : Except Exn Val :=
  process env 5 f v ph ser []

/-- A unique sequence of sequences: its items are lists, which are not hashable. -/
def uniq : Field := .sequence {} (.sequence {} int none none false) none none true

/-- A schema meeting `Tidy` throughout. -/
def tidy : Field := .structure {} [(c!"a", int), (c!"b", text)] true [c!"b"]

end Ex

/-- C26. The causes are not hypothetical: for each kind a schema and a candidate exist for which `process`
raises an exception that is not a StructuralError. -/
theorem C26_other_exceptions_occur :
    Ex.run (.undef 0) .none = .error (.py .attributeError) ∧
    Ex.run (.sequence {} (.undef 0) none none false) (.list [.none]) = .error .undefinedField ∧
    Ex.run (.structure {} [(c!"a", .undef 0)] true []) (.dict []) = .error (.py .attributeError) ∧
    Ex.run (.structure {} [(c!"a", .undef 0)] true []) (.dict [(.str c!"a", .none)]) = .error .undefinedField ∧
    Ex.run (.leaf { constant := .int 1 } (.enumeration [.int 1] [])) (.int 2) = .error (.py .keyError) ∧
    Ex.run (.leaf {} (.binary none none)) (.bytes [65]) .inbound true = .error (.py .binasciiError) ∧
    Ex.run (.leaf {} (.decimal (some (.fin false 0 0)) none)) (.decimal .nan) =
      .error (.py .invalidOperation) ∧
    Ex.run (.leaf {} .error) (.tuple [.int 1, .none]) .inbound true = .error (.py .typeError) ∧
    Ex.run (.map {} (some Ex.text) Ex.int []) (.dict [(.tuple [], .int 1)]) = .error (.py .typeError) ∧
    Ex.run (.map {} none Ex.int [.list []]) (.dict []) = .error (.py .typeError) ∧
    Ex.run Ex.uniq (.list [.list []]) = .error (.py .typeError) ∧
    Ex.run (.structure {} [] true [c!"a"]) (.dict []) = .error (.py .keyError) := by
  refine ⟨?_, ?_, ?_, ?_, ?_, ?_, ?_, ?_, ?_, ?_, ?_, ?_⟩ <;> rfl


theorem Ex.tidy_everywhere : Everywhere Ex.env (Tidy Ex.env .inbound true) Ex.tidy := by
  have leaf : ∀ k, (k = Leaf.integer none none ∨ k = Leaf.text none none none true) →
      Everywhere Ex.env (Tidy Ex.env .inbound true) (.leaf {} k) := by
    rintro k (rfl | rfl) <;>
      exact .leaf ⟨fun _ h => (List.not_mem_nil h).elim, ⟨_, rfl, rfl⟩, fun _ h => h.elim,
        fun _ _ h => h.elim, trivial⟩
  refine .mk' ⟨fun _ h => (List.not_mem_nil h).elim, ⟨_, rfl, rfl⟩, fun _ h => h.elim, ?_, ?_⟩ ?_
  · intro name p hp
    simp only [Ex.tidy, Declarations, List.mem_cons, Prod.mk.injEq, List.not_mem_nil, or_false] at hp
    rcases hp with ⟨_, rfl⟩ | ⟨_, rfl⟩ <;> exact ⟨_, _, rfl, rfl⟩
  · simp [Ex.tidy]
  · intro g hg
    unfold Ex.tidy at hg
    cases hg with
    | member hm hr =>
      simp only [List.mem_cons, Prod.mk.injEq, List.not_mem_nil, or_false] at hm
      rcases hm with ⟨_, rfl⟩ | ⟨_, rfl⟩ <;> cases hr
      · exact leaf _ (.inl rfl)
      · exact leaf _ (.inr rfl)

/-- The hypotheses of `C26_tidy_schema` are met by a structure and a malformed candidate. -/
example : NoTupleKeys Ex.env .inbound Ex.tidy (.int 3) ∧
    ∃ e, process Ex.env 5 Ex.tidy (.int 3) .inbound true [] = .error e := by
  refine ⟨?_, _, rfl⟩
  intro g w h d hd
  cases h with
  | here => cases hd
  | call hc _ =>
    unfold Ex.tidy at hc
    cases hc with
    | member hi => cases hi

end Scheme
