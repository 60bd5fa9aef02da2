import Verif.Lemmas.Loops

namespace Scheme

theorem ancOr_ne {f : Field} {anc : List Str} (h : anc ≠ []) : ancOr f anc = anc := by
  simp [ancOr, h]

theorem ancOr_root (f : Field) : ancOr f [guaranteedName f] = [guaranteedName f] := rfl

theorem process_root (env : Env) (n : Nat) (f : Field) (v : Val) (ph : Phase) (ser : Bool) :
    process env n f v ph ser [] = process env n f v ph ser [guaranteedName f] := by
  cases n with
  | zero => rfl
  | succ n =>
    have h : ancOr f [] = ancOr f [guaranteedName f] := rfl
    cases f <;> simp only [process, processStep, processLeaf, processSequence, processMap, processTuple,
      processUnion, processStructure, processPoly, h]

/-- Running a sequence without preprocessor on a list. -/
theorem processSequence_list {env : Env} {rec : Proc} {c : Common} {item : Field} {mn mx : Option Nat}
    {u : Bool} {l : List Val} {ph : Phase} {ser : Bool} {anc : List Str} (hpre : c.pre = none)
    (ha : anc ≠ []) :
    processSequence env rec c item mn mx u (.list l) ph ser anc =
      (if violates (fun m => decide (l.length < m)) mn then
        .error (mkErr (.sequence c item mn mx u) .validation anc (.list l) c!"min_length"
          [(c!"min_length", natStr (mn.getD 0)), (c!"noun", itemNoun (mn.getD 0))])
      else if violates (fun m => decide (l.length > m)) mx then
        .error (mkErr (.sequence c item mn mx u) .validation anc (.list l) c!"max_length"
          [(c!"max_length", natStr (mx.getD 0)), (c!"noun", itemNoun (mx.getD 0))])
      else
        collectAll (l.mapIdx fun j v => callChild env rec item v ph ser (anc ++ [idxStep j])) >>= fun r =>
        if r.2 = false then .error (.structural ⟨.validation, anc, [], .list r.1, .list l⟩)
        else if u then
          if r.1.all hashable then
            if allDistinct r.1 then .ok (.list r.1)
            else .error (mkErr (.sequence c item mn mx u) .validation anc (.list l) c!"duplicate" [])
          else .error (.py .typeError)
        else .ok (.list r.1)) := by
  have hn : isNull (.sequence c item mn mx u) (.list l) anc = .ok false :=
    isNull_nonEnum rfl (by simp) (by simp)
  unfold processSequence
  simp only [ancOr_ne ha, hn, rawPre, hpre, seqLoop_eq, Nat.zero_add, except_bind_ok, Bool.false_eq_true,
    if_false, except_throw, except_pure]
  cases violates (fun m => decide (l.length < m)) mn <;>
    cases violates (fun m => decide (l.length > m)) mx <;> simp

end Scheme
