import Verif.Lemmas.Null
import Verif.Spec.Examples

/-! C04: null handling. -/

namespace Scheme

/-- C04. `None` is returned as it is by every field type that is not `nonnull`, in either phase, in
either mode, whatever the preprocessor, constant or other parameters are. -/
theorem C04_null_accepted (env : Env) (n : Nat) (f : Field) (c : Common) (hc : f.common? = some c)
    (hn : c.nonnull = false) (ph : Phase) (ser : Bool) (anc : List Str) :
    process env (n + 1) f .none ph ser anc = .ok .none := by
  apply process_of_isNull_true
  rw [isNull_none hc, hn]; rfl

example : (Field.leaf { constant := .int 3 } (.integer (some 2) none)).common? =
    some { constant := .int 3 } ∧ ({ constant := .int 3 } : Common).nonnull = false := ⟨rfl, rfl⟩

/-- C04. `None` is rejected by every `nonnull` field type with a ValidationError located at the field
whose only token is 'nonnull'. -/
theorem C04_null_rejected (env : Env) (n : Nat) (f : Field) (c : Common) (hc : f.common? = some c)
    (hp : plainErrors f) (hn : c.nonnull = true) (ph : Phase) (ser : Bool) (anc : List Str)
    (ha : anc ≠ []) :
    Raises (process env (n + 1) f .none ph ser anc) .validation anc .none c!"nonnull" := by
  have hs : f.common?.isSome = true := by rw [hc]; rfl
  have hanc : ancOr f anc = anc := by simp [ancOr, ha]
  obtain ⟨t, m, hm⟩ := mkErr_nonnull f hs hp .validation anc .none
  refine ⟨t, m, ?_⟩
  apply process_of_isNull_error hs
  rw [hanc, isNull_none hc, hn, hm]; rfl

/-- C04, location when no ancestry is given: the field's own name, or its type in parentheses. -/
theorem C04_null_rejected_root (env : Env) (n : Nat) (f : Field) (c : Common) (hc : f.common? = some c)
    (hp : plainErrors f) (hn : c.nonnull = true) (ph : Phase) (ser : Bool) :
    Raises (process env (n + 1) f .none ph ser []) .validation
      [match c.name with | some (a :: s) => a :: s | _ => c!"(" ++ f.type ++ c!")"]
      .none c!"nonnull" := by
  have hs : f.common?.isSome = true := by rw [hc]; rfl
  have hanc : ancOr f [] = [match c.name with | some (a :: s) => a :: s | _ => c!"(" ++ f.type ++ c!")"] := by
    simp only [ancOr, guaranteedName, Field.name, hc, Option.bind_some, List.isEmpty_nil, if_true]
    rcases c.name with _ | (_ | _) <;> rfl
  obtain ⟨t, m, hm⟩ := mkErr_nonnull f hs hp .validation (ancOr f []) .none
  refine ⟨t, m, ?_⟩
  apply process_of_isNull_error hs
  rw [isNull_none hc, hn, if_pos rfl, hm, hanc]

example : Raises (process Ex.env 1 (.leaf { name := some c!"a", nonnull := true } .boolean) .none .inbound false [])
    .validation [c!"a"] .none c!"nonnull" :=
  C04_null_rejected_root _ _ _ { name := some c!"a", nonnull := true } rfl
    (by simp [plainErrors, Field.common?]) rfl _ _

/-- C04. An Enumeration treats each of its ignored values exactly as `None`. -/
theorem C04_ignored_as_null (env : Env) (n : Nat) (c : Common) (vals ign : List Val) (v : Val)
    (h : ∃ w ∈ ign, pyEq v w = true) (ph : Phase) (ser : Bool) (anc : List Str) :
    process env n (.leaf c (.enumeration vals ign)) v ph ser anc =
      process env n (.leaf c (.enumeration vals ign)) .none ph ser anc := by
  have hi : pyIn v ign = true := by
    obtain ⟨w, hw, he⟩ := h
    exact List.any_eq_true.2 ⟨w, hw, he⟩
  cases n with
  | zero => rfl
  | succ n =>
    have hcom : (Field.leaf c (.enumeration vals ign)).common? = some c := rfl
    have h1 := isNull_none (anc := ancOr (.leaf c (.enumeration vals ign)) anc) hcom
    have h2 := isNull_ignored (c := c) (vals := vals) (anc := ancOr (.leaf c (.enumeration vals ign)) anc) hi
    cases hn : c.nonnull with
    | false =>
      rw [hn] at h1
      rw [process_of_isNull_true (h2.trans h1), process_of_isNull_true h1]
    | true =>
      rw [hn] at h1
      rw [process_of_isNull_error rfl (h2.trans h1), process_of_isNull_error rfl h1]

example : ∃ w ∈ [Val.str c!"x"], pyEq (.str c!"x") w = true := ⟨_, List.mem_cons_self .., rfl⟩

end Scheme
