import Verif.Lemmas.Errs

namespace Scheme

theorem process_of_isNull_true {env : Env} {n : Nat} {f : Field} {v : Val} {ph : Phase} {ser : Bool}
    {anc : List Str} (h : isNull f v (ancOr f anc) = .ok true) :
    process env (n + 1) f v ph ser anc = .ok .none := by
  cases f <;> simp only [process, processStep, processLeaf, processSequence, processMap, processTuple,
    processUnion, processStructure, processPoly, h, except_bind_ok, if_true, except_pure]
  simp [isNull, Field.common?] at h

theorem process_of_isNull_error {env : Env} {n : Nat} {f : Field} {v : Val} {ph : Phase} {ser : Bool}
    {anc : List Str} {e : Exn} (hf : f.common?.isSome = true)
    (h : isNull f v (ancOr f anc) = .error e) :
    process env (n + 1) f v ph ser anc = .error e := by
  cases f <;> simp only [process, processStep, processLeaf, processSequence, processMap, processTuple,
    processUnion, processStructure, processPoly, h, except_bind_error]
  simp [Field.common?] at hf

theorem isNull_none {f : Field} {c : Common} {anc : List Str} (hc : f.common? = some c) :
    isNull f .none anc =
      if c.nonnull then .error (mkErr f .validation anc .none c!"nonnull" []) else .ok true := by
  have : nullView f .none = .none := by unfold nullView; split <;> simp
  simp only [isNull, hc, this]; rfl

theorem isNull_ignored {c : Common} {vals ign : List Val} {v : Val} {anc : List Str}
    (h : pyIn v ign = true) :
    isNull (.leaf c (.enumeration vals ign)) v anc = isNull (.leaf c (.enumeration vals ign)) .none anc := by
  simp only [isNull, nullView, h, if_true, ite_self]

end Scheme
