import Verif.Props.Sequence
import Verif.Spec.Alternatives

/-! C12: unions. -/

namespace Scheme

theorem unionLoop_append {env : Env} {rec : Proc} {v : Val} {ph : Phase} {ser : Bool} {anc : List Str}
    (before : List Field) (rest : List Field)
    (h : ∀ f ∈ before, RejectsType (callChild env rec f v ph ser anc)) :
    unionLoop env rec v ph ser anc (before ++ rest) = unionLoop env rec v ph ser anc rest := by
  induction before with
  | nil => rfl
  | cons f fs ih =>
    obtain ⟨e, he, hr⟩ := h f (List.mem_cons_self ..)
    rw [List.cons_append, unionLoop, hr]
    simp only [he, if_true]
    exact ih (fun f hf => h f (List.mem_cons_of_mem _ hf))

/-- C12. A union behaves exactly as its first member that does not reject the value's type, result or
exception. -/
theorem C12_union_first (env : Env) (n : Nat) (c : Common) (before after : List Field) (f g : Field)
    (v : Val) (hv : v ≠ .none) (ph : Phase) (ser : Bool) (anc : List Str) (ha : anc ≠ [])
    (hg : resolve env f = some g)
    (hb : ∀ x ∈ before, ∃ y, resolve env x = some y ∧ RejectsType (process env n y v ph ser anc))
    (hf : ¬ RejectsType (process env n g v ph ser anc)) :
    process env (n + 1) (.union c (before ++ f :: after)) v ph ser anc = process env n g v ph ser anc := by
  show processUnion env (process env n) c _ v ph ser anc = _
  have hn : isNull (.union c (before ++ f :: after)) v anc = .ok false := isNull_nonEnum rfl (by simp) hv
  unfold processUnion
  simp only [ancOr_ne ha, hn, except_bind_ok, Bool.false_eq_true, if_false]
  rw [unionLoop_append before (f :: after) (fun x hx => by
    obtain ⟨y, hy, hr⟩ := hb x hx; simpa [callChild, hy] using hr)]
  have hc : callChild env (process env n) f v ph ser anc = process env n g v ph ser anc := by
    simp [callChild, hg]
  rw [unionLoop, hc]
  cases hr : process env n g v ph ser anc with
  | ok r => rfl
  | error e =>
    cases e with
    | structural e =>
      have : e.cls ≠ .invalidType := fun h => hf ⟨e, h, hr⟩
      simp only [this, if_false]
    | _ => rfl

example : RejectsType (process Ex.env 1 Ex.int (.bool true) .inbound false [c!"u"]) ∧
    process Ex.env 2 (.union {} ([Ex.int] ++ (.leaf {} .boolean) :: [])) (.bool true) .inbound false [c!"u"]
      = .ok (.bool true) := ⟨⟨_, rfl, rfl⟩, rfl⟩

/-- C12. If every member rejects the type, so does the union, with the single token 'invalid'. -/
theorem C12_union_none (env : Env) (n : Nat) (c : Common) (fields : List Field)
    (hp : plainErrors (.union c fields)) (v : Val) (hv : v ≠ .none) (ph : Phase) (ser : Bool)
    (anc : List Str) (ha : anc ≠ [])
    (hb : ∀ x ∈ fields, ∃ y, resolve env x = some y ∧ RejectsType (process env n y v ph ser anc)) :
    Raises (process env (n + 1) (.union c fields) v ph ser anc) .invalidType anc v c!"invalid" := by
  show Raises (processUnion env (process env n) c _ v ph ser anc) _ _ _ _
  have hn : isNull (.union c fields) v anc = .ok false := isNull_nonEnum rfl (by simp) hv
  unfold processUnion
  simp only [ancOr_ne ha, hn, except_bind_ok, Bool.false_eq_true, if_false]
  have := unionLoop_append (env := env) (rec := process env n) (v := v) (ph := ph) (ser := ser) (anc := anc)
    fields [] (fun x hx => by obtain ⟨y, hy, hr⟩ := hb x hx; simpa [callChild, hy] using hr)
  rw [List.append_nil] at this
  rw [this]
  exact mkErr_class _ _ _ _ _ _ hp ⟨_, rfl, rfl⟩

/-- C12. A member's ValidationError is final: later members are not tried, even if they accept. -/
theorem C12_validation_error_is_final :
    ∃ e : SErr, e.cls = .validation ∧
      process Ex.env 2 (.union {} [.leaf {} (.integer (some 5) none), Ex.int]) (.int 1) .inbound false [c!"u"] =
        .error (.structural e) ∧
      process Ex.env 1 Ex.int (.int 1) .inbound false [c!"u"] = .ok (.int 1) := ⟨_, rfl, rfl, rfl⟩

end Scheme
