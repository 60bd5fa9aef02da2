import Verif.Lemmas.MapLoop
import Verif.Spec.Members

namespace Scheme

theorem dictGet_str_eq_given (d : List (Val × Val)) (name : Str) :
    dictGet d (.str name) = given d name := by
  induction d with
  | nil => rfl
  | cons e r ih =>
    obtain ⟨k, v⟩ := e
    simp only [dictGet, given, List.find?_cons]
    cases k with
    | str s =>
      rw [pyEq_str_str]
      by_cases h : name = s
      · subst h; simp
      · have h' : (s == name) = false := by simp; exact fun h2 => h h2.symm
        simp only [h, decide_false, Bool.false_eq_true, if_false, h']
        simpa [given] using ih
    | _ => simp [pyEq, numOf]; simpa [given] using ih

/-- What a structure stores for a member with the given value or default, and whether it is valid. -/
def fieldOut (env : Env) (rec : Proc) (ph : Phase) (ser : Bool) (anc : List Str) (name : Str)
    (field : Field) (fv : Val) : Except Exn (Option Val × Bool) :=
  match resolve env field with
  | none => .error .undefinedField
  | some g =>
    match g.common? with
    | none => .error .undefinedField
    | some c =>
      if c.ignoreNull && fv.isNone then .ok (none, true)
      else do
        let x ← collect (rec g fv ph ser (anc ++ ['.' :: name]))
        return (some x.1, x.2)

/-- One iteration of the key loop without its state. -/
def memberOut (env : Env) (rec : Proc) (f : Field) (value : List (Val × Val))
    (defn : List (Str × Field)) (ph : Phase) (ser part : Bool) (anc : List Str) (name : Str) :
    Except Exn (Option Val × Bool) :=
  match defn.lookup name with
  | none => .error (.py .keyError)
  | some field =>
    match dictGet value (.str name) with
    | some fv => fieldOut env rec ph ser anc name field fv
    | none =>
      if part then .ok (none, true)
      else
        match (resolve env field).bind Field.common? with
        | none => .error (.py .attributeError)
        | some c =>
          if ph = .inbound ∧ !c.default.isNone then
            fieldOut env rec ph ser anc name field c.default
          else if c.required then
            match mkErr f .validation anc .none c!"required" [(c!"name", name)] with
            | .structural e => .ok (some e.toVal, false)
            | e => .error e
          else .ok (none, true)

/-- Applying the outcome of one iteration to the state. -/
def applyOut (st : SState) (name : Str) (x : Option Val × Bool) : SState :=
  { names := st.names.filter fun k => !pyEq (.str name) k
    out := match x.1 with | some v => dictSet st.out (.str name) v | none => st.out
    valid := st.valid && x.2 }

theorem structField_eq (env : Env) (rec : Proc) (ph : Phase) (ser : Bool) (anc : List Str) (name : Str)
    (field : Field) (fv : Val) (st : SState) :
    structField env rec ph ser anc name field fv st =
      (fieldOut env rec ph ser anc name field fv) >>= fun x =>
        .ok { st with out := match x.1 with | some v => dictSet st.out (.str name) v | none => st.out,
                      valid := st.valid && x.2 } := by
  unfold structField fieldOut
  cases resolve env field with
  | none => rfl
  | some g =>
    simp only
    cases g.common? with
    | none => rfl
    | some c =>
      simp only
      cases (c.ignoreNull && fv.isNone) with
      | true => simp
      | false =>
        simp only [Bool.false_eq_true, if_false]
        cases collect (rec g fv ph ser (anc ++ ['.' :: name])) <;> rfl

theorem structStep_eq (env : Env) (rec : Proc) (f : Field) (value : List (Val × Val))
    (defn : List (Str × Field)) (ph : Phase) (ser part : Bool) (anc : List Str) (name : Str)
    (st : SState) (h : pyIn (.str name) st.names = (dictGet value (.str name)).isSome) :
    structStep env rec f value defn ph ser part anc name st =
      memberOut env rec f value defn ph ser part anc name >>= fun x => .ok (applyOut st name x) := by
  unfold structStep memberOut
  cases hf : defn.lookup name with
  | none => rfl
  | some field =>
    simp only [h]
    cases hd : dictGet value (.str name) with
    | some fv =>
      simp only [Option.isSome_some, if_true, Option.getD_some, structField_eq]
      rfl
    | none =>
      have hfil : st.names.filter (fun k => !pyEq (.str name) k) = st.names := by
        rw [List.filter_eq_self]
        intro k hk
        rw [hd] at h
        simp only [Option.isSome_none, pyIn, List.any_eq_false] at h
        simpa using h k hk
      simp only [Option.isSome_none, Bool.false_eq_true, if_false]
      have happ : ∀ x, applyOut st name x =
          { st with out := match x.1 with | some v => dictSet st.out (.str name) v | none => st.out,
                    valid := st.valid && x.2 } := by
        intro x; simp only [applyOut, hfil]
      simp only [happ]
      cases part with
      | true => simp
      | false =>
        simp only [Bool.false_eq_true, if_false]
        cases (resolve env field).bind Field.common? with
        | none => rfl
        | some c =>
          simp only
          by_cases hi : ph = .inbound ∧ (!c.default.isNone) = true
          · simp only [hi, and_self, if_true]; rw [structField_eq]
          · simp only [hi, if_false]
            cases c.required with
            | false => simp
            | true =>
              simp only [if_true]
              cases mkErr f .validation anc .none c!"required" [(c!"name", name)] <;> simp

theorem structLoop_eq (env : Env) (rec : Proc) (f : Field) (value : List (Val × Val))
    (defn : List (Str × Field)) (ph : Phase) (ser part : Bool) (anc : List Str) (order : List Str)
    (st : SState) (hnd : order.Nodup)
    (h : ∀ n ∈ order, pyIn (.str n) st.names = (dictGet value (.str n)).isSome) :
    structLoop env rec f value defn ph ser part anc order st =
      seqAll (order.map (memberOut env rec f value defn ph ser part anc)) >>= fun ms =>
        .ok ((order.zip ms).foldl (fun s x => applyOut s x.1 x.2) st) := by
  induction order generalizing st with
  | nil => simp [structLoop, seqAll]
  | cons n r ih =>
    rw [List.nodup_cons] at hnd
    rw [structLoop, structStep_eq _ _ _ _ _ _ _ _ _ _ _ (h n (List.mem_cons_self ..)), List.map_cons, seqAll]
    cases memberOut env rec f value defn ph ser part anc n with
    | error _ => rfl
    | ok x =>
      simp only [except_bind_ok]
      rw [ih (applyOut st n x) hnd.2]
      · cases seqAll (r.map (memberOut env rec f value defn ph ser part anc)) with
        | error _ => rfl
        | ok ms => simp
      · intro m hm
        rw [← h m (List.mem_cons_of_mem _ hm)]
        have hne : n ≠ m := fun he => hnd.1 (he ▸ hm)
        simp only [applyOut, pyIn, List.any_filter]
        congr 1
        funext k
        cases hk : pyEq (.str m) k with
        | false => simp
        | true =>
          rw [pyEq_str_left] at hk; subst hk
          rw [pyEq_str_str]; simp [hne]

/-- The final state of the key loop in closed form. -/
theorem foldl_applyOut (xs : List (Str × Option Val × Bool)) (st : SState)
    (hnd : (xs.map (·.1)).Nodup) (hfresh : ∀ x ∈ xs, Val.str x.1 ∉ st.out.map (·.1)) :
    xs.foldl (fun s x => applyOut s x.1 x.2) st =
      { names := st.names.filter fun k => xs.all fun x => !pyEq (.str x.1) k
        out := st.out ++ xs.filterMap fun x => x.2.1.map fun v => (.str x.1, v)
        valid := st.valid && xs.all (·.2.2) } := by
  induction xs generalizing st with
  | nil =>
    have : st.names.filter (fun _ => true) = st.names := by rw [List.filter_eq_self]; simp
    simp [this]
  | cons x r ih =>
    rw [List.map_cons, List.nodup_cons] at hnd
    rw [List.foldl_cons, ih _ hnd.2]
    · obtain ⟨n, o, b⟩ := x
      simp only [applyOut, List.filter_filter, List.all_cons, Bool.and_assoc, SState.mk.injEq,
        List.filterMap_cons]
      refine ⟨?_, ?_, trivial⟩
      · congr 1; funext k; rw [Bool.and_comm]
      · cases o with
        | none => rfl
        | some v =>
          simp only [Option.map_some]
          rw [dictSet_fresh _ _ _ (hfresh (n, some v, b) (List.mem_cons_self ..))]
          simp
    · intro y hy
      have h1 := hfresh y (List.mem_cons_of_mem _ hy)
      obtain ⟨n, o, b⟩ := x
      simp only [applyOut]
      cases o with
      | none => exact h1
      | some v =>
        simp only
        rw [dictSet_fresh _ _ _ (hfresh (n, some v, b) (List.mem_cons_self ..))]
        simp only [List.map_append, List.mem_append, List.map_cons, List.map_nil, List.mem_singleton,
          Val.str.injEq, not_or]
        refine ⟨h1, ?_⟩
        rintro rfl
        exact hnd.1 (List.mem_map.2 ⟨y, hy, rfl⟩)

theorem seqAll_length {α : Type} {cs : List (Except Exn α)} {rs : List α} (h : seqAll cs = .ok rs) :
    rs.length = cs.length := by
  rw [seqAll_eq_ok.1 h]; simp

theorem structUnknown_valid (env : Env) (f : Field) (anc : List Str) (names : List Val) (st st' : SState)
    (h : structUnknown env f anc names st = .ok st') (hv : st'.valid = true) :
    names = [] ∧ st' = st := by
  induction names generalizing st with
  | nil => simp only [structUnknown, Except.ok.injEq] at h; exact ⟨rfl, h.symm⟩
  | cons k r ih =>
    exfalso
    rw [structUnknown] at h
    split at h
    · obtain ⟨rfl, rfl⟩ := ih _ h
      simp at hv
    · simp at h

/-- The leftover names after the key loop. -/
def leftover (order : List Str) (d : List (Val × Val)) : List Val :=
  (d.map (·.1)).filter fun k => order.all fun n => !pyEq (.str n) k

theorem structBody_eq (env : Env) (rec : Proc) (f : Field) (strict : Bool) (order : List Str)
    (defn : List (Str × Field)) (d : List (Val × Val)) (ph : Phase) (ser part : Bool) (anc : List Str)
    (hnd : order.Nodup) :
    structBody env rec f strict order defn d ph ser part anc =
      (seqAll (order.map (memberOut env rec f d defn ph ser part anc)) >>= fun ms =>
        (if strict then structUnknown env f anc (leftover order d)
            ⟨leftover order d, (order.zip ms).filterMap (fun x => x.2.1.map fun v => (.str x.1, v)),
              ms.all (·.2)⟩
          else .ok ⟨leftover order d, (order.zip ms).filterMap (fun x => x.2.1.map fun v => (.str x.1, v)),
              ms.all (·.2)⟩) >>= fun st =>
        if st.valid then .ok (.dict st.out)
        else .error (.structural ⟨.validation, anc, [], .dict st.out, .dict d⟩)) := by
  unfold structBody
  rw [structLoop_eq _ _ _ _ _ _ _ _ _ _ _ hnd]
  · cases hm : seqAll (order.map (memberOut env rec f d defn ph ser part anc)) with
    | error _ => rfl
    | ok ms =>
      simp only [except_bind_ok]
      have hlen := seqAll_length hm
      simp only [List.length_map] at hlen
      have h1 : (order.zip ms).map (·.1) = order := by
        rw [List.map_fst_zip]; omega
      have h2 : ((order.zip ms).all fun x => x.2.2) = ms.all (·.2) := by
        conv => rhs; rw [← List.map_snd_zip (l₁ := order) (l₂ := ms) (by omega)]
        rw [List.all_map]; rfl
      rw [foldl_applyOut _ _ (by rw [h1]; exact hnd) (by simp)]
      have h3 : ∀ k, ((order.zip ms).all fun x => !pyEq (.str x.1) k) =
          order.all fun n => !pyEq (.str n) k := by
        intro k
        conv => rhs; rw [← h1]
        rw [List.all_map]; rfl
      simp only [h2, h3, Bool.true_and, List.nil_append]
      cases strict <;> rfl
  · intro n _
    simp only
    rw [Bool.eq_iff_iff, pyIn_str, dictGet_str_isSome]

/-- The structure machinery depends on the field only through the errors it produces. -/
theorem structBody_congr {env : Env} {rec : Proc} {f f' : Field} (h : mkErr f = mkErr f') :
    structBody env rec f = structBody env rec f' := by
  have hstep : structStep env rec f = structStep env rec f' := by
    funext value defn ph ser part anc name st
    unfold structStep
    rw [h]
  have hloop : structLoop env rec f = structLoop env rec f' := by
    funext value defn ph ser part anc order
    induction order with
    | nil => rfl
    | cons n r ih =>
      funext st
      rw [structLoop, structLoop, hstep, ih]
  have hunk : structUnknown env f = structUnknown env f' := by
    funext anc names
    induction names with
    | nil => rfl
    | cons k r ih =>
      funext st
      rw [structUnknown, structUnknown, h, ih]
  funext strict order defn value ph ser part anc
  unfold structBody
  rw [hloop, hunk]

end Scheme
