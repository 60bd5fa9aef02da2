import Verif.Lemmas.Blame
import Verif.Lemmas.Leaf
import Verif.Spec.Alternatives

/-! Rejecting the type of a native value does not depend on the direction. -/

namespace Scheme

/-- The outcome is no InvalidTypeError. -/
def NotOfType {α : Type} (r : Except Exn α) : Prop := ∀ s : SErr, r = .error (.structural s) → s.cls ≠ .invalidType

namespace NotOfType
variable {α β : Type}

theorem ok (x : α) : NotOfType (.ok x : Except Exn α) := fun _ h => nomatch h

theorem py (e : PyErr) : NotOfType (.error (.py e) : Except Exn α) := fun _ h => nomatch h

theorem undefined : NotOfType (.error .undefinedField : Except Exn α) := fun _ h => nomatch h

theorem structural {s : SErr} (h : s.cls ≠ .invalidType) : NotOfType (.error (.structural s) : Except Exn α) := by
  intro s' h'
  cases h'
  exact h

theorem made (f : Field) (anc : List Str) (v : Val) (t : Str) (ps : List (Str × Str)) :
    NotOfType (.error (mkErr f .validation anc v t ps) : Except Exn α) := by
  unfold mkErr
  split
  · exact py _
  · split
    · exact py _
    · exact structural (by simp)

theorem bind {x : Except Exn α} {f : α → Except Exn β} (hx : NotOfType x) (hf : ∀ a, NotOfType (f a)) : NotOfType (x >>= f) := by
  cases x with
  | error e => intro s h; cases h; exact hx s rfl
  | ok a => exact hf a

theorem ite {c : Prop} [Decidable c] {x y : Except Exn α} (hx : NotOfType x) (hy : NotOfType y) : NotOfType (if c then x else y) := by
  split
  · exact hx
  · exact hy

theorem collected (r : Except Exn Val) : NotOfType (collect r) := by
  unfold collect
  split
  · exact ok _
  · exact ok _
  · rename_i h
    intro s hs
    cases hs
    exact absurd rfl (h s)

end NotOfType

section
variable {env : Env} {rec : Proc} {ph : Phase} {ser : Bool}

theorem seqLoop_notType {item : Field} {anc : List Str} {l : List Val} : ∀ i, NotOfType (seqLoop env rec item ph ser anc i l) := by
  induction l with
  | nil => exact fun _ => .ok _
  | cons v r ih => exact fun i => .bind (.collected _) fun x => .bind (ih _) fun y => .ok _

theorem tupLoop_notType {anc : List Str} {fs : List Field} : ∀ i l, NotOfType (tupLoop env rec ph ser anc i fs l) := by
  induction fs with
  | nil => intro i l; cases l <;> exact .ok _
  | cons f r ih =>
    intro i l
    cases l with
    | nil => exact .ok _
    | cons v l => exact .bind (.collected _) fun x => .bind (ih _ _) fun y => .ok _

theorem keyStep_notType {k : Val} : NotOfType (keyStep env k) := by
  unfold keyStep
  split <;> first | exact .ok _ | exact .py _

theorem mapKey_notType {f : Field} {whole : Val} {key : Option Field} {anc : List Str} {k : Val} :
    NotOfType (mapKey env rec f whole key ph ser anc k) := by
  unfold mapKey
  split
  · refine .bind keyStep_notType fun step => ?_
    split
    · exact .ok _
    · exact .made _ _ _ _ _
    · rename_i e h _
      intro s hs
      cases hs
      exact absurd rfl (h s)
  · exact .ite (.ok _) (.made _ _ _ _ _)

theorem mapLoop_notType {f : Field} {whole : Val} {key : Option Field} {value : Field} {anc : List Str} {d : List (Val × Val)} :
    ∀ acc b, NotOfType (mapLoop env rec f whole key value ph ser anc d acc b) := by
  induction d with
  | nil => exact fun _ _ => .ok _
  | cons e r ih =>
    intro acc b
    obtain ⟨k, v⟩ := e
    rw [mapLoop]
    refine .bind mapKey_notType fun k' => .bind keyStep_notType fun step => .bind (.collected _) fun x => ?_
    split
    · exact ih _ _
    · exact .py _

theorem mapRequired_notType {f : Field} {anc : List Str} {req : List Val} : ∀ acc b, NotOfType (mapRequired env f anc req acc b) := by
  induction req with
  | nil => exact fun _ _ => .ok _
  | cons k r ih =>
    intro acc b
    rw [mapRequired]
    split
    · split
      · exact ih _ _
      · rcases mkErr_form f .validation anc .none c!"required" [(c!"name", keyText env k)] with ⟨s, hs⟩ | hs
        · rw [hs]; exact ih _ _
        · rw [hs]; exact .py _
    · exact .py _

theorem structField_notType {anc : List Str} {name : Str} {field : Field} {fv : Val} {st : SState} :
    NotOfType (structField env rec ph ser anc name field fv st) := by
  unfold structField
  split
  · exact .undefined
  · split
    · exact .undefined
    · exact .ite (.ok _) (.bind (.collected _) fun _ => .ok _)

theorem structStep_notType {f : Field} {value : List (Val × Val)} {defn : List (Str × Field)} {part : Bool} {anc : List Str} {name : Str}
    {st : SState} : NotOfType (structStep env rec f value defn ph ser part anc name st) := by
  unfold structStep
  split
  · exact .py _
  · refine .ite structField_notType (.ite (.ok _) ?_)
    split
    · exact .py _
    · refine .ite structField_notType (.ite ?_ (.ok _))
      rcases mkErr_form f .validation anc .none c!"required" [(c!"name", name)] with ⟨s, hs⟩ | hs
      · rw [hs]; exact .ok _
      · rw [hs]; exact .py _

theorem structLoop_notType {f : Field} {value : List (Val × Val)} {defn : List (Str × Field)} {part : Bool} {anc : List Str} {names : List Str} :
    ∀ st, NotOfType (structLoop env rec f value defn ph ser part anc names st) := by
  induction names with
  | nil => exact fun _ => .ok _
  | cons n r ih => exact fun st => .bind structStep_notType fun _ => ih _

theorem structUnknown_notType {f : Field} {anc : List Str} {names : List Val} : ∀ st, NotOfType (structUnknown env f anc names st) := by
  induction names with
  | nil => exact fun _ => .ok _
  | cons k r ih =>
    intro st
    rw [structUnknown]
    rcases mkErr_form f .validation anc .none c!"unknown" [(c!"name", keyText env k)] with ⟨s, hs⟩ | hs
    · rw [hs]; exact ih _
    · rw [hs]; exact .py _

theorem structBody_notType {f : Field} {strict part : Bool} {order : List Str} {defn : List (Str × Field)} {value : List (Val × Val)} {anc : List Str} :
    NotOfType (structBody env rec f strict order defn value ph ser part anc) := by
  unfold structBody
  have last : ∀ st : SState, NotOfType (if st.valid then .ok (.dict st.out)
      else .error (.structural ⟨.validation, anc, [], .dict st.out, .dict value⟩) : Except Exn Val) :=
    fun st => .ite (.ok _) (.structural (by simp))
  refine .bind (structLoop_notType _) fun st => ?_
  dsimp only
  exact .ite (.bind (structUnknown_notType _) fun st => last st) (last st)

theorem NotOfType.rejects {r : Except Exn Val} (h : NotOfType r) : ¬ RejectsType r := by
  rintro ⟨e, he, hr⟩
  exact h e hr he

theorem rejects_bind {α : Type} {x : Except Exn α} {f g : α → Except Exn Val} (h : RejectsType (x >>= f))
    (hfg : ∀ a, RejectsType (f a) → RejectsType (g a)) : RejectsType (x >>= g) := by
  cases x with
  | error e =>
    obtain ⟨s, h1, h2⟩ := h
    cases h2
    exact ⟨s, h1, rfl⟩
  | ok a => exact hfg a h

theorem rawPre_notType {c : Common} {v : Val} : NotOfType (rawPre env c v) := by
  unfold rawPre
  split
  · split
    · exact .ok _
    · exact .py _
  · exact .ok _

end

/-- A leaf rejects before it would serialize, in the same way. -/
theorem leaf_rejects_out {env : Env} {c : Common} {k : Leaf} {v : Val} {anc : List Str} {e : Exn}
    (h : processLeaf env c k v .inbound false anc = .error e) : processLeaf env c k v .outbound true anc = .error e := by
  rw [processLeaf_eq] at h ⊢
  simp only [decodeStep, encodeStep, Bool.false_eq_true, false_and, if_false, reduceCtorEq, and_false, and_self, if_true] at h ⊢
  cases h1 : isNull (.leaf c k) v (ancOr (.leaf c k) anc) with
  | error e' => rw [h1] at h; exact h
  | ok b =>
    rw [h1] at h
    simp only [except_bind_ok] at h ⊢
    cases b with
    | true => simp at h
    | false =>
      simp only [Bool.false_eq_true, if_false] at h ⊢
      cases h2 : preprocess env (.leaf c k) c k v (ancOr (.leaf c k) anc) with
      | error e' => rw [h2] at h; exact h
      | ok v2 =>
        rw [h2] at h
        simp only [except_bind_ok] at h ⊢
        cases h3 : checkConst (.leaf c k) c v2 (ancOr (.leaf c k) anc) with
        | error e' => rw [h3] at h; exact h
        | ok v2 =>
          rw [h3] at h
          simp only [except_bind_ok] at h ⊢
          cases h4 : validateLeaf env (.leaf c k) k v2 (ancOr (.leaf c k) anc) with
          | error e' => rw [h4] at h; exact h
          | ok v2 => rw [h4] at h; simp at h

theorem rejects_null {f : Field} {v : Val} {anc : List Str} {x y : Except Exn Val}
    (h : RejectsType (isNull f v anc >>= fun b => if b then .ok .none else x)) (hxy : RejectsType x → RejectsType y) :
    RejectsType (isNull f v anc >>= fun b => if b then .ok .none else y) := by
  refine rejects_bind h fun b hb => ?_
  cases b with
  | true => exact hb
  | false => exact hxy hb

theorem union_rejects {env : Env} {rec : Proc} {v : Val} {ph : Phase} {ser : Bool} {anc : List Str} {fs : List Field} :
    unionLoop env rec v ph ser anc fs = none ↔ ∀ f ∈ fs, RejectsType (callChild env rec f v ph ser anc) := by
  induction fs with
  | nil => simp [unionLoop]
  | cons f r ih =>
    rw [unionLoop]
    split
    · rename_i e he
      split
      · rename_i hc
        rw [ih]
        constructor
        · intro h x hx
          rcases List.mem_cons.1 hx with rfl | hx
          · exact ⟨e, hc, he⟩
          · exact h x hx
        · exact fun h x hx => h x (List.mem_cons_of_mem _ hx)
      · rename_i hc
        refine ⟨fun h => by simp at h, fun h => ?_⟩
        obtain ⟨e', h1, h2⟩ := h f List.mem_cons_self
        rw [he] at h2
        cases h2
        exact absurd h1 hc
    · rename_i he
      refine ⟨fun h => by simp at h, fun h => ?_⟩
      obtain ⟨e', h1, h2⟩ := h f List.mem_cons_self
      exact absurd h2 (he e')

theorem union_loop_rejects {env : Env} {rec : Proc} {v : Val} {ph : Phase} {ser : Bool} {anc : List Str} {fs : List Field} {r : Except Exn Val}
    (h : unionLoop env rec v ph ser anc fs = some r) : ¬ RejectsType r := by
  induction fs with
  | nil => cases h
  | cons f l ih =>
    rw [unionLoop] at h
    split at h
    · rename_i e he
      split at h
      · exact ih h
      · rename_i hc
        cases h
        rintro ⟨e', h1, h2⟩
        cases h2
        exact hc h1
    · rename_i he
      cases h
      rintro ⟨e', h1, h2⟩
      exact he e' h2

/-- A field that rejects the type of a native value when reading it rejects it when writing it. -/
theorem rejects_out {env : Env} {n : Nat} {g : Field} {v : Val} {anc : List Str}
    (h : RejectsType (process env n g v .inbound false anc)) : RejectsType (process env n g v .outbound true anc) := by
  induction n generalizing g v anc with
  | zero => obtain ⟨_, _, h⟩ := h; cases h
  | succ n ih =>
    have child : ∀ anc f, RejectsType (callChild env (process env n) f v .inbound false anc) →
        RejectsType (callChild env (process env n) f v .outbound true anc) := by
      intro anc f hf
      unfold callChild at hf ⊢
      split at hf
      · obtain ⟨_, _, hf⟩ := hf; cases hf
      · exact ih hf
    cases g with
    | undef s => obtain ⟨_, _, h⟩ := h; cases h
    | leaf c k =>
      obtain ⟨e, h1, h2⟩ := h
      exact ⟨e, h1, leaf_rejects_out h2⟩
    | sequence c item mn mx u =>
      refine rejects_null h fun h => ?_
      cases v with
      | list l =>
        refine rejects_bind h fun x hx => ?_
        refine absurd hx (NotOfType.rejects ?_)
        cases x with
        | list l =>
          refine .ite (.made _ _ _ _ _) (.ite (.made _ _ _ _ _) (.bind (seqLoop_notType _) fun r => ?_))
          exact .ite (.structural (by simp)) (.ite (.ite (.ite (.ok _) (.made _ _ _ _ _)) (.py _)) (.ok _))
        | _ => exact .py _
      | _ => exact h
    | tuple c fs =>
      refine rejects_null h fun h => ?_
      have body : ∀ w l a, NotOfType (if l.length ≠ fs.length then .error (mkErr (.tuple c fs) .validation a w c!"length" [(c!"length", natStr fs.length)])
          else tupLoop env (process env n) .inbound false a 0 fs l >>= fun r =>
            if r.2 then .ok (.tuple r.1) else .error (.structural ⟨.validation, a, [], .list r.1, w⟩) : Except Exn Val) :=
        fun w l a => .ite (.made _ _ _ _ _) (.bind (tupLoop_notType _ _) fun r => .ite (.ok _) (.structural (by simp)))
      cases v with
      | list l =>
        refine rejects_bind h fun x hx => absurd hx (NotOfType.rejects ?_)
        cases x with
        | list l => exact body _ _ _
        | tuple l => exact body _ _ _
        | _ => exact .py _
      | tuple l =>
        refine rejects_bind h fun x hx => absurd hx (NotOfType.rejects ?_)
        cases x with
        | list l => exact body _ _ _
        | tuple l => exact body _ _ _
        | _ => exact .py _
      | _ => exact h
    | map c key value req =>
      refine rejects_null h fun h => ?_
      cases v with
      | dict d =>
        refine rejects_bind h fun x hx => absurd hx (NotOfType.rejects ?_)
        cases x with
        | dict d =>
          exact .bind (mapLoop_notType _ _) fun r => .bind (mapRequired_notType _ _) fun r => .ite (.ok _) (.structural (by simp))
        | _ => exact .py _
      | _ => exact h
    | union c fs =>
      refine rejects_null h fun h => ?_
      cases hl : unionLoop env (process env n) v .inbound false (ancOr (.union c fs) anc) fs with
      | some r =>
        simp only [hl] at h
        exact absurd h (union_loop_rejects hl)
      | none =>
        simp only [hl] at h
        rw [union_rejects] at hl
        have hl' : unionLoop env (process env n) v .outbound true (ancOr (.union c fs) anc) fs = none :=
          union_rejects.2 fun f hf => child _ f (hl f hf)
        simp only [hl']
        exact h
    | «structure» c defn strict ko =>
      refine rejects_null h fun h => ?_
      cases v with
      | dict d =>
        refine rejects_bind h fun x hx => absurd hx (NotOfType.rejects ?_)
        cases x with
        | dict d => exact structBody_notType
        | _ => exact .py _
      | _ => exact h
    | poly c disc vs strict ko =>
      refine rejects_null h fun h => ?_
      cases v with
      | dict d =>
        refine rejects_bind h fun x hx => ?_
        cases x with
        | dict d =>
          revert hx
          dsimp only
          split
          · exact id
          · intro hx
            cases hd : process env n disc ((dictGet d (.str (disc.name.getD []))).getD .none) .inbound false
                (ancOr (.poly c disc vs strict ko) anc ++ ['.' :: disc.name.getD []]) with
            | ok id =>
              rw [hd] at hx
              refine absurd hx (NotOfType.rejects ?_)
              refine .ite (.py _) ?_
              split
              · exact .made _ _ _ _ _
              · exact .ite (.made _ _ _ _ _) (.ite (.py _) structBody_notType)
            | error e =>
              have hr : RejectsType (process env n disc ((dictGet d (.str (disc.name.getD []))).getD .none) .inbound false
                (ancOr (.poly c disc vs strict ko) anc ++ ['.' :: disc.name.getD []])) := by
                rw [hd] at hx ⊢; exact hx
              obtain ⟨e', h1, h2⟩ := ih hr
              rw [h2]
              exact ⟨e', h1, rfl⟩
        | _ => exact hx
      | _ => exact h

end Scheme
