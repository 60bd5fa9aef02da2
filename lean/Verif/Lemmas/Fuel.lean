import Verif.Spec.Calls
import Verif.Lemmas.Members

namespace Scheme

/-- `x` and `y` agree, or (when `b`) `x` ran out of stack. -/
def Le (b : Bool) {α : Type} (x y : Except Exn α) : Prop :=
  x = y ∨ (b = true ∧ x = .error (.py .recursionError))

theorem Le.refl {b : Bool} {α : Type} (x : Except Exn α) : Le b x x := .inl rfl

theorem Le.bind {b : Bool} {α β : Type} {x y : Except Exn α} {f g : α → Except Exn β} (h : Le b x y)
    (hfg : ∀ a, Le b (f a) (g a)) : Le b (x >>= f) (y >>= g) := by
  rcases h with rfl | ⟨hb, rfl⟩
  · cases x with
    | ok a => exact hfg a
    | error e => exact .refl _
  · exact .inr ⟨hb, rfl⟩

theorem Le.collect {b : Bool} {x y : Except Exn Val} (h : Le b x y) : Le b (collect x) (collect y) := by
  rcases h with rfl | ⟨hb, rfl⟩
  · exact .refl _
  · exact .inr ⟨hb, rfl⟩

section
variable {env : Env} {b : Bool} {rec rec' : Proc} {ph : Phase} {ser part : Bool}

theorem callChild_le {item : Field} {w : Val} {anc : List Str}
    (h : ∀ g, resolve env item = some g → Le b (rec g w ph ser anc) (rec' g w ph ser anc)) :
    Le b (callChild env rec item w ph ser anc) (callChild env rec' item w ph ser anc) := by
  unfold callChild
  cases hr : resolve env item with
  | none => exact .refl _
  | some g => exact h g hr

theorem seqLoop_le {item : Field} {anc : List Str} {l : List Val} (i : Nat)
    (h : ∀ w ∈ l, ∀ g anc, resolve env item = some g → Le b (rec g w ph ser anc) (rec' g w ph ser anc)) :
    Le b (seqLoop env rec item ph ser anc i l) (seqLoop env rec' item ph ser anc i l) := by
  induction l generalizing i with
  | nil => exact .refl _
  | cons v r ih =>
    refine Le.bind (callChild_le fun g hg => h v (List.mem_cons_self ..) g _ hg).collect fun x => ?_
    exact Le.bind (ih (i + 1) fun w hw => h w (List.mem_cons_of_mem _ hw)) fun y => .refl _

theorem tupLoop_le {anc : List Str} {fs : List Field} {l : List Val} (i : Nat)
    (h : ∀ f w, (f, w) ∈ fs.zip l → ∀ g anc, resolve env f = some g →
      Le b (rec g w ph ser anc) (rec' g w ph ser anc)) :
    Le b (tupLoop env rec ph ser anc i fs l) (tupLoop env rec' ph ser anc i fs l) := by
  induction l generalizing i fs with
  | nil => cases fs <;> exact .refl _
  | cons v r ih =>
    cases fs with
    | nil => exact .refl _
    | cons f fs =>
      refine Le.bind (callChild_le fun g hg => h f v (List.mem_cons_self ..) g _ hg).collect fun x => ?_
      exact Le.bind (ih (i + 1) fun f w hw => h f w (List.mem_cons_of_mem _ hw)) fun y => .refl _

theorem mapKey_le {f : Field} {whole : Val} {key : Option Field} {anc : List Str} {k : Val}
    (h : ∀ kf anc, key = some kf → Le b (rec kf k ph ser anc) (rec' kf k ph ser anc)) :
    Le b (mapKey env rec f whole key ph ser anc k) (mapKey env rec' f whole key ph ser anc k) := by
  cases key with
  | none => exact .refl _
  | some kf =>
    refine Le.bind (.refl (keyStep env k)) fun st => ?_
    have := h kf (anc ++ [st]) rfl
    rcases this with he | ⟨hb, he⟩
    · rw [he]; exact .refl _
    · rw [he]; exact .inr ⟨hb, rfl⟩

theorem mapLoop_le {f : Field} {whole : Val} {key : Option Field} {value : Field} {anc : List Str}
    {d : List (Val × Val)} (acc : List (Val × Val)) (valid : Bool)
    (hk : ∀ e ∈ d, ∀ kf anc, key = some kf → Le b (rec kf e.1 ph ser anc) (rec' kf e.1 ph ser anc))
    (hv : ∀ e ∈ d, ∀ g anc, resolve env value = some g → Le b (rec g e.2 ph ser anc) (rec' g e.2 ph ser anc)) :
    Le b (mapLoop env rec f whole key value ph ser anc d acc valid)
      (mapLoop env rec' f whole key value ph ser anc d acc valid) := by
  induction d generalizing acc valid with
  | nil => exact .refl _
  | cons e r ih =>
    obtain ⟨k, v⟩ := e
    rw [mapLoop, mapLoop]
    refine Le.bind (mapKey_le (hk (k, v) (List.mem_cons_self ..))) fun k' => ?_
    refine Le.bind (.refl _) fun st => ?_
    refine Le.bind (callChild_le fun g hg => hv (k, v) (List.mem_cons_self ..) g _ hg).collect fun x => ?_
    split
    · exact ih _ _ (fun e he => hk e (List.mem_cons_of_mem _ he)) (fun e he => hv e (List.mem_cons_of_mem _ he))
    · exact .refl _

theorem unionLoop_le {v : Val} {anc : List Str} {fs : List Field}
    (h : ∀ f ∈ fs, ∀ g anc, resolve env f = some g → Le b (rec g v ph ser anc) (rec' g v ph ser anc)) :
    unionLoop env rec v ph ser anc fs = unionLoop env rec' v ph ser anc fs ∨
      (b = true ∧ unionLoop env rec v ph ser anc fs = some (.error (.py .recursionError))) := by
  induction fs with
  | nil => exact .inl rfl
  | cons f fs ih =>
    rw [unionLoop, unionLoop]
    have := callChild_le (env := env) (b := b) (rec := rec) (rec' := rec') (w := v) (anc := anc) (ph := ph)
      (ser := ser) fun g hg => h f (List.mem_cons_self ..) g anc hg
    rcases this with he | ⟨hb, he⟩
    · rw [he]
      split
      · split
        · exact ih fun f hf => h f (List.mem_cons_of_mem _ hf)
        · exact .inl rfl
      · exact .inl rfl
    · rw [he]; exact .inr ⟨hb, rfl⟩

theorem structField_le {anc : List Str} {name : Str} {field : Field} {fv : Val} {st : SState}
    (h : ∀ g c anc, resolve env field = some g → g.common? = some c → (c.ignoreNull = true → fv ≠ .none) →
      Le b (rec g fv ph ser anc) (rec' g fv ph ser anc)) :
    Le b (structField env rec ph ser anc name field fv st) (structField env rec' ph ser anc name field fv st) := by
  unfold structField
  cases hr : resolve env field with
  | none => exact .refl _
  | some g =>
    simp only
    cases hc : g.common? with
    | none => exact .refl _
    | some c =>
      simp only
      split
      · exact .refl _
      · rename_i hi
        refine Le.bind (h g c _ hr hc fun hig hn => ?_).collect fun x => .refl _
        simp [hig, hn, Val.isNone] at hi

theorem structStep_le {f : Field} {d : List (Val × Val)} {defn : List (Str × Field)} {anc : List Str}
    {name : Str} {st : SState} (hst : ∀ k ∈ st.names, k ∈ d.map (·.1))
    (h : ∀ field g c o w anc, (name, field) ∈ defn → resolve env field = some g → g.common? = some c →
      (o = given d name ∨ o = none) → memberInput c o ph part = some w → Le b (rec g w ph ser anc) (rec' g w ph ser anc)) :
    Le b (structStep env rec f d defn ph ser part anc name st)
      (structStep env rec' f d defn ph ser part anc name st) := by
  unfold structStep
  cases hl : defn.lookup name with
  | none => exact .refl _
  | some field =>
    simp only
    have hmem : (name, field) ∈ defn := by
      clear h hst
      induction defn with
      | nil => simp at hl
      | cons e r ih =>
        obtain ⟨n', f'⟩ := e
        rw [List.lookup_cons] at hl
        split at hl
        · rename_i hn
          cases hl
          rw [beq_iff_eq.1 hn]
          exact List.mem_cons_self ..
        · exact List.mem_cons_of_mem _ (ih hl)
    split
    · rename_i hin
      have hin' := hst _ ((pyIn_str _ _).1 hin)
      rw [← dictGet_str_isSome] at hin'
      obtain ⟨x, hx⟩ := Option.isSome_iff_exists.1 hin'
      rw [hx]
      rw [dictGet_str_eq_given] at hx
      refine structField_le fun g c anc hr hc hi => h field g c _ _ anc hmem hr hc (.inl rfl) ?_
      rw [hx]
      cases x <;> simp_all [memberInput]
    · rename_i hin
      split
      · exact .refl _
      · rename_i hpart
        cases hb : (resolve env field).bind Field.common? with
        | none => exact .refl _
        | some c =>
          simp only
          split
          · rename_i hd
            refine structField_le fun g c' anc hr hc hi => ?_
            rw [hr] at hb
            simp only [Option.bind_some] at hb
            rw [hc] at hb; cases hb
            refine h field g c none _ anc hmem hr hc (.inr rfl) ?_
            rw [memberInput_absent, if_neg hpart, if_pos hd]
          · exact .refl _

theorem structField_names {anc : List Str} {name : Str} {field : Field} {fv : Val} {st st' : SState}
    (h : structField env rec ph ser anc name field fv st = .ok st') : st'.names = st.names := by
  rw [structField_eq, except_bind_eq_ok] at h
  obtain ⟨x, _, h⟩ := h
  cases h; rfl

theorem structStep_names {f : Field} {d : List (Val × Val)} {defn : List (Str × Field)} {anc : List Str}
    {name : Str} {st st' : SState} (h : structStep env rec f d defn ph ser part anc name st = .ok st') :
    ∀ k ∈ st'.names, k ∈ st.names := by
  unfold structStep at h
  split at h
  · simp at h
  · split at h
    · rw [structField_names h]
      intro k hk
      exact (List.mem_filter.1 hk).1
    · split at h
      · cases h; exact fun k hk => hk
      · split at h
        · simp at h
        · split at h
          · rw [structField_names h]; exact fun k hk => hk
          · split at h
            · split at h
              · cases h; exact fun k hk => hk
              · simp at h
            · cases h; exact fun k hk => hk

theorem structLoop_le {f : Field} {d : List (Val × Val)} {defn : List (Str × Field)} {anc : List Str}
    {order : List Str} {st : SState} (hst : ∀ k ∈ st.names, k ∈ d.map (·.1))
    (h : ∀ name field g c o w anc, (name, field) ∈ defn → resolve env field = some g → g.common? = some c →
      (o = given d name ∨ o = none) → memberInput c o ph part = some w →
      Le b (rec g w ph ser anc) (rec' g w ph ser anc)) :
    Le b (structLoop env rec f d defn ph ser part anc order st)
      (structLoop env rec' f d defn ph ser part anc order st) := by
  induction order generalizing st with
  | nil => exact .refl _
  | cons n r ih =>
    rw [structLoop, structLoop]
    have h1 := structStep_le (rec := rec) (rec' := rec') (b := b) (f := f) (ser := ser) (anc := anc) hst (h n)
    rcases h1 with he | ⟨hb, he⟩
    · rw [← he]
      cases hs : structStep env rec f d defn ph ser part anc n st with
      | error e => exact .refl _
      | ok st' =>
        simp only [except_bind_ok]
        refine ih fun k hk => hst k ?_
        exact structStep_names hs k hk
    · rw [he]; exact .inr ⟨hb, rfl⟩

theorem structBody_le {f : Field} {strict : Bool} {d : List (Val × Val)} {defn : List (Str × Field)} {anc : List Str}
    {order : List Str}
    (h : ∀ name field g c o w anc, (name, field) ∈ defn → resolve env field = some g → g.common? = some c →
      (o = given d name ∨ o = none) → memberInput c o ph part = some w →
      Le b (rec g w ph ser anc) (rec' g w ph ser anc)) :
    Le b (structBody env rec f strict order defn d ph ser part anc)
      (structBody env rec' f strict order defn d ph ser part anc) :=
  Le.bind (structLoop_le (fun _ hk => hk) h) fun _ => .refl _

theorem rawPre_input {c : Common} {v w : Val} (h : rawPre env c v = .ok w) : containerInput env c v = some w := by
  unfold rawPre at h
  unfold containerInput
  split at h
  · rename_i h1
    rw [h1]
    simp only
    split at h
    · rename_i h2; rw [h2]; cases h; rfl
    · simp at h
  · rename_i h1
    rw [h1]; cases h; rfl

theorem structPre_input {f : Field} {c : Common} {v w : Val} {anc : List Str} (h : structPre env f c v anc = .ok w) :
    containerInput env c v = some w := by
  unfold structPre at h
  unfold containerInput
  split at h
  · rename_i h1
    rw [h1]
    simp only
    split at h
    · rename_i h2; rw [h2]; cases h; rfl
    · simp at h
  · rename_i h1
    rw [h1]; cases h; rfl

theorem Le.bindOk {α β : Type} {x : Except Exn α} {f g : α → Except Exn β}
    (hfg : ∀ a, x = .ok a → Le b (f a) (g a)) : Le b (x >>= f) (x >>= g) := by
  cases x with
  | ok a => exact hfg a rfl
  | error e => exact .refl _

theorem Le.ite {α : Type} {p : Prop} [Decidable p] {x y x' y' : Except Exn α} (h1 : p → Le b x x') (h2 : ¬p → Le b y y') :
    Le b (if p then x else y) (if p then x' else y') := by
  split
  · exact h1 ‹_›
  · exact h2 ‹_›

/-- Processing depends on the recursive calls only through the calls listed by `Calls`. -/
theorem processStructure_le {c : Common} {defn : List (Str × Field)} {strict : Bool} {ko : List Str} {v : Val}
    {anc : List Str}
    (h : ∀ g w anc, Calls env ph part (.structure c defn strict ko) v g w →
      Le b (rec g w ph ser anc) (rec' g w ph ser anc)) :
    Le b (processStructure env rec c defn strict ko part v ph ser anc)
      (processStructure env rec' c defn strict ko part v ph ser anc) := by
  unfold processStructure
  refine Le.bindOk fun nb _ => Le.ite (fun _ => .refl _) fun _ => ?_
  cases v with
  | dict d =>
    refine Le.bindOk fun i hi => ?_
    cases i with
    | dict d' =>
      exact structBody_le fun name field g cg o w anc hm hr hc ho hw =>
        h g w anc (.member (structPre_input hi) hm hr hc ho hw)
    | _ => exact .refl _
  | _ => exact .refl _

theorem variantGet_mem {vs : List (Val × List (Str × Field))} {id : Val} {d : List (Str × Field)}
    (h : variantGet vs id = some d) : ∃ i, (i, d) ∈ vs := by
  induction vs with
  | nil => simp [variantGet] at h
  | cons e r ih =>
    obtain ⟨k, d'⟩ := e
    rw [variantGet] at h
    split at h
    · cases h; exact ⟨k, List.mem_cons_self ..⟩
    · obtain ⟨i, hi⟩ := ih h
      exact ⟨i, List.mem_cons_of_mem _ hi⟩

theorem processPoly_le {c : Common} {disc : Field} {vs : List (Val × List (Str × Field))} {strict : Bool}
    {ko : List Str} {v : Val} {anc : List Str}
    (h : ∀ g w anc, Calls env ph part (.poly c disc vs strict ko) v g w →
      Le b (rec g w ph ser anc) (rec' g w ph ser anc)) :
    Le b (processPoly env rec c disc vs strict ko part v ph ser anc)
      (processPoly env rec' c disc vs strict ko part v ph ser anc) := by
  unfold processPoly
  refine Le.bindOk fun nb _ => Le.ite (fun _ => .refl _) fun _ => ?_
  cases v with
  | dict d =>
    refine Le.bindOk fun i hi => ?_
    cases i with
    | dict d' =>
      refine Le.ite (fun _ => .refl _) fun hn => ?_
      refine Le.bind ?_ fun id => ?_
      · refine h _ _ _ (.disc (structPre_input hi) ?_)
        rw [dictGet_str_eq_given] at hn ⊢
        cases hg : given d' (disc.name.getD []) with
        | none => simp [hg, Val.isNone] at hn
        | some x => rfl
      · refine Le.ite (fun _ => .refl _) fun _ => ?_
        cases hv : variantGet vs id with
        | none => exact .refl _
        | some defn =>
          obtain ⟨i, hm'⟩ := variantGet_mem hv
          refine Le.ite (fun _ => .refl _) fun _ => Le.ite (fun _ => .refl _) fun _ => ?_
          exact structBody_le fun name field g cg o w anc hm hr hc ho hw =>
            h g w anc (.variant (structPre_input hi) hm' hm hr hc ho hw)
    | _ => exact .refl _
  | _ => exact .refl _

theorem processStep_le {f : Field} {v : Val} {anc : List Str}
    (h : ∀ g w anc, Calls env ph false f v g w → Le b (rec g w ph ser anc) (rec' g w ph ser anc)) :
    Le b (processStep env rec f v ph ser anc) (processStep env rec' f v ph ser anc) := by
  cases f with
  | leaf c k => exact .refl _
  | undef s => exact .refl _
  | «structure» c defn strict ko => exact processStructure_le h
  | poly c disc vs strict ko => exact processPoly_le h
  | sequence c item mn mx u =>
    show Le b (processSequence ..) (processSequence ..)
    unfold processSequence
    refine Le.bindOk fun nb _ => Le.ite (fun _ => .refl _) fun _ => ?_
    cases v with
    | list l =>
      refine Le.bindOk fun i hi => ?_
      cases i with
      | list l' =>
        refine Le.ite (fun _ => .refl _) fun _ => Le.ite (fun _ => .refl _) fun _ => ?_
        exact Le.bind (seqLoop_le 0 fun w hw g anc hg => h g w anc (.item (rawPre_input hi) hw hg)) fun _ => .refl _
      | _ => exact .refl _
    | _ => exact .refl _
  | map c key value req =>
    show Le b (processMap ..) (processMap ..)
    unfold processMap
    refine Le.bindOk fun nb _ => Le.ite (fun _ => .refl _) fun _ => ?_
    cases v with
    | dict l =>
      refine Le.bindOk fun i hi => ?_
      cases i with
      | dict l' =>
        refine Le.bind (mapLoop_le _ _ (fun e he kf anc hk => ?_) fun e he g anc hg => ?_) fun _ => .refl _
        · subst hk; exact h kf e.1 anc (.key (rawPre_input hi) (x := e.2) he)
        · exact h g e.2 anc (.value (rawPre_input hi) (k := e.1) he hg)
      | _ => exact .refl _
    | _ => exact .refl _
  | tuple c fs =>
    show Le b (processTuple ..) (processTuple ..)
    unfold processTuple
    refine Le.bindOk fun nb _ => Le.ite (fun _ => .refl _) fun _ => ?_
    have go : Le b
        (rawPre env c v >>= fun i => match i with
          | .list l => (if l.length ≠ fs.length then .error (mkErr (.tuple c fs) .validation (ancOr (.tuple c fs) anc) (.list l) c!"length" [(c!"length", natStr fs.length)])
              else tupLoop env rec ph ser (ancOr (.tuple c fs) anc) 0 fs l >>= fun r => if r.2 then .ok (.tuple r.1)
                else .error (.structural ⟨.validation, ancOr (.tuple c fs) anc, [], .list r.1, .list l⟩) : Except Exn Val)
          | .tuple l => (if l.length ≠ fs.length then .error (mkErr (.tuple c fs) .validation (ancOr (.tuple c fs) anc) (.tuple l) c!"length" [(c!"length", natStr fs.length)])
              else tupLoop env rec ph ser (ancOr (.tuple c fs) anc) 0 fs l >>= fun r => if r.2 then .ok (.tuple r.1)
                else .error (.structural ⟨.validation, ancOr (.tuple c fs) anc, [], .list r.1, .tuple l⟩) : Except Exn Val)
          | _ => .error (.py .typeError))
        (rawPre env c v >>= fun i => match i with
          | .list l => (if l.length ≠ fs.length then .error (mkErr (.tuple c fs) .validation (ancOr (.tuple c fs) anc) (.list l) c!"length" [(c!"length", natStr fs.length)])
              else tupLoop env rec' ph ser (ancOr (.tuple c fs) anc) 0 fs l >>= fun r => if r.2 then .ok (.tuple r.1)
                else .error (.structural ⟨.validation, ancOr (.tuple c fs) anc, [], .list r.1, .list l⟩) : Except Exn Val)
          | .tuple l => (if l.length ≠ fs.length then .error (mkErr (.tuple c fs) .validation (ancOr (.tuple c fs) anc) (.tuple l) c!"length" [(c!"length", natStr fs.length)])
              else tupLoop env rec' ph ser (ancOr (.tuple c fs) anc) 0 fs l >>= fun r => if r.2 then .ok (.tuple r.1)
                else .error (.structural ⟨.validation, ancOr (.tuple c fs) anc, [], .list r.1, .tuple l⟩) : Except Exn Val)
          | _ => .error (.py .typeError)) := by
      refine Le.bindOk fun i hi => ?_
      cases i with
      | list l =>
        refine Le.ite (fun _ => .refl _) fun _ => Le.bind (tupLoop_le 0 fun f w hw g anc hg => ?_) fun _ => .refl _
        exact h g w anc (.tuple (rawPre_input hi) (.inl rfl) hw hg)
      | tuple l =>
        refine Le.ite (fun _ => .refl _) fun _ => Le.bind (tupLoop_le 0 fun f w hw g anc hg => ?_) fun _ => .refl _
        exact h g w anc (.tuple (rawPre_input hi) (.inr rfl) hw hg)
      | _ => exact .refl _
    cases v with
    | list l => exact go
    | tuple l => exact go
    | _ => exact .refl _
  | union c fs =>
    show Le b (processUnion ..) (processUnion ..)
    unfold processUnion
    refine Le.bindOk fun nb _ => Le.ite (fun _ => .refl _) fun _ => ?_
    have := unionLoop_le (env := env) (b := b) (rec := rec) (rec' := rec') (v := v) (anc := ancOr (.union c fs) anc)
      (ph := ph) (ser := ser) (fs := fs) fun f hf g anc hg => h g v anc (.union hf hg)
    rcases this with he | ⟨hb, he⟩
    · rw [he]; exact .refl _
    · rw [he]; exact .inr ⟨hb, rfl⟩

end
end Scheme
