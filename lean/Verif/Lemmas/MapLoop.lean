import Verif.Props.Sequence

namespace Scheme

/-- Left to right evaluation of a list of computations, stopping at the first exception. -/
def seqAll {α : Type} : List (Except Exn α) → Except Exn (List α)
  | [] => .ok []
  | c :: r => do
    let x ← c
    let y ← seqAll r
    return x :: y

theorem seqAll_eq_ok {α : Type} {cs : List (Except Exn α)} {rs : List α} :
    seqAll cs = .ok rs ↔ cs = rs.map .ok := by
  induction cs generalizing rs with
  | nil => cases rs <;> simp [seqAll]
  | cons c r ih =>
    rw [seqAll, except_bind_eq_ok]
    constructor
    · rintro ⟨a, rfl, h⟩
      rw [except_bind_eq_ok] at h
      obtain ⟨b, hb, h⟩ := h
      simp only [except_pure, Except.ok.injEq] at h
      subst h
      rw [ih.1 hb]; rfl
    · intro h
      cases rs with
      | nil => simp at h
      | cons x xs =>
        simp only [List.map_cons, List.cons.injEq] at h
        exact ⟨x, h.1, by rw [ih.2 h.2]; rfl⟩

theorem seqAll_error {α : Type} {pre post : List (Except Exn α)} {e : Exn} {rs : List α}
    (h : pre = rs.map .ok) : seqAll (pre ++ .error e :: post) = .error e := by
  subst h
  induction rs with
  | nil => rfl
  | cons r rs ih => simp only [List.map_cons, List.cons_append, seqAll, except_bind_ok, ih, except_bind_error]

/-- One iteration of the Map loop: processed key, stored value, whether the value was accepted. -/
def entryOut (env : Env) (rec : Proc) (f : Field) (whole : Val) (key : Option Field) (value : Field)
    (ph : Phase) (ser : Bool) (anc : List Str) (e : Val × Val) : Except Exn (Val × Val × Bool) := do
  let k' ← mapKey env rec f whole key ph ser anc e.1
  let step ← keyStep env k'
  let x ← collect (callChild env rec value e.2 ph ser (anc ++ [step]))
  if hashable k' then return (k', x.1, x.2) else .error (.py .typeError)

theorem mapLoop_eq (env : Env) (rec : Proc) (f : Field) (whole : Val) (key : Option Field) (value : Field)
    (ph : Phase) (ser : Bool) (anc : List Str) (d acc : List (Val × Val)) (valid : Bool) :
    mapLoop env rec f whole key value ph ser anc d acc valid =
      seqAll (d.map (entryOut env rec f whole key value ph ser anc)) >>= fun es =>
        .ok (es.foldl (fun a e => dictSet a e.1 e.2.1) acc, valid && es.all (·.2.2)) := by
  induction d generalizing acc valid with
  | nil => simp [mapLoop, seqAll]
  | cons e r ih =>
    obtain ⟨k, v⟩ := e
    have hk : mapLoop env rec f whole key value ph ser anc ((k, v) :: r) acc valid =
        (entryOut env rec f whole key value ph ser anc (k, v)) >>= fun x =>
          mapLoop env rec f whole key value ph ser anc r (dictSet acc x.1 x.2.1) (valid && x.2.2) := by
      rw [mapLoop]
      unfold entryOut
      cases mapKey env rec f whole key ph ser anc k with
      | error _ => rfl
      | ok k' =>
        simp only [except_bind_ok]
        cases keyStep env k' with
        | error _ => rfl
        | ok st' =>
          simp only [except_bind_ok]
          cases collect (callChild env rec value v ph ser (anc ++ [st'])) with
          | error _ => rfl
          | ok y => cases hashable k' <;> rfl
    rw [hk, List.map_cons, seqAll]
    cases entryOut env rec f whole key value ph ser anc (k, v) with
    | error _ => rfl
    | ok x =>
      simp only [except_bind_ok, ih]
      cases seqAll (r.map (entryOut env rec f whole key value ph ser anc)) with
      | error _ => rfl
      | ok es => simp [Bool.and_assoc]

theorem dictGet_isSome (d : List (Val × Val)) (k : Val) :
    (dictGet d k).isSome = true ↔ ∃ e ∈ d, pyEq k e.1 = true := by
  induction d with
  | nil => simp [dictGet]
  | cons e r ih =>
    obtain ⟨k', v⟩ := e
    simp only [dictGet]
    cases h : pyEq k k'
    · simp [h, ih]
    · simp [h]

theorem dictGet_none (d : List (Val × Val)) (k : Val) :
    dictGet d k = none ↔ ∀ e ∈ d, pyEq k e.1 = false := by
  have := dictGet_isSome d k
  cases h : dictGet d k with
  | none =>
    simp only [h, Option.isSome_none, Bool.false_eq_true, false_iff, not_exists, not_and,
      Bool.not_eq_true] at this
    simpa using this
  | some v =>
    simp only [h, Option.isSome_some, true_iff] at this
    obtain ⟨e, he, hk⟩ := this
    constructor
    · simp
    · intro h'; rw [h' e he] at hk; simp at hk

theorem dictSet_new (d : List (Val × Val)) (k v : Val) (h : ∀ e ∈ d, pyEq k e.1 = false) :
    dictSet d k v = d ++ [(k, v)] := by
  induction d with
  | nil => rfl
  | cons e r ih =>
    obtain ⟨k', v'⟩ := e
    simp only [dictSet]
    rw [h (k', v') (List.mem_cons_self ..), ih (fun e he => h e (List.mem_cons_of_mem _ he))]
    rfl

/-- Assigning pairwise different keys one after the other lists them in order. -/
theorem foldl_dictSet_new (es acc : List (Val × Val))
    (h : es.Pairwise fun a b => pyEq b.1 a.1 = false)
    (h2 : ∀ a ∈ acc, ∀ b ∈ es, pyEq b.1 a.1 = false) :
    es.foldl (fun a e => dictSet a e.1 e.2) acc = acc ++ es := by
  induction es generalizing acc with
  | nil => simp
  | cons e r ih =>
    rw [List.pairwise_cons] at h
    rw [List.foldl_cons, dictSet_new acc e.1 e.2 (fun a ha => h2 a ha e (List.mem_cons_self ..)),
      ih _ h.2]
    · simp
    · intro a ha b hb
      rcases List.mem_append.1 ha with ha | ha
      · exact h2 a ha b (List.mem_cons_of_mem _ hb)
      · rw [List.mem_singleton] at ha; subst ha
        exact h.1 b hb

theorem mkErr_map_required (c : Common) (key : Option Field) (value : Field) (req : List Val)
    (hp : plainErrors (.map c key value req)) (anc : List Str) (s : Str) :
    ∃ t m, mkErr (.map c key value req) .validation anc .none c!"required" [(c!"name", s)] =
      .structural ⟨.validation, anc, [errItem c!"required" t m], .none, .none⟩ :=
  mkErr_spec _ _ _ _ _ _ _ hp rfl rfl

theorem mapRequired_ok_true (env : Env) (f : Field) (anc : List Str) (req : List Val)
    (acc out : List (Val × Val)) (b : Bool) :
    mapRequired env f anc req acc b = .ok (out, true) ↔
      b = true ∧ out = acc ∧ ∀ k ∈ req, hashable k = true ∧ ∃ e ∈ acc, pyEq k e.1 = true := by
  have hfalse : ∀ (req : List Val) acc out, mapRequired env f anc req acc false ≠ .ok (out, true) := by
    intro req
    induction req with
    | nil => intro acc out; simp [mapRequired]
    | cons k r ih =>
      intro acc out
      rw [mapRequired]
      cases hashable k
      · simp
      · simp only [if_true]
        split
        · exact ih _ _
        · split
          · exact ih _ _
          · simp
  induction req generalizing acc with
  | nil =>
    simp only [mapRequired, Except.ok.injEq, Prod.mk.injEq, List.not_mem_nil, false_implies, implies_true,
      and_true]
    exact ⟨fun h => ⟨h.2, h.1.symm⟩, fun h => ⟨h.2.symm, h.1⟩⟩
  | cons k r ih =>
    rw [mapRequired]
    cases hk : hashable k
    · simp [hk]
    · simp only [if_true]
      cases hd : dictGet acc k with
      | some x =>
        simp only [ih]
        have := (dictGet_isSome acc k).1 (by rw [hd]; rfl)
        simp only [List.mem_cons, forall_eq_or_imp, hk, true_and, this]
      | none =>
        simp only
        have hn := (dictGet_none acc k).1 hd
        constructor
        · intro h
          split at h
          · exact absurd h (hfalse _ _ _)
          · simp at h
        · rintro ⟨_, _, h⟩
          obtain ⟨_, e, he, hke⟩ := h k (List.mem_cons_self ..)
          rw [hn e he] at hke; simp at hke

theorem processMap_dict {env : Env} {rec : Proc} {c : Common} {key : Option Field} {value : Field}
    {req : List Val} {d : List (Val × Val)} {ph : Phase} {ser : Bool} {anc : List Str}
    (hpre : c.pre = none) (ha : anc ≠ []) :
    processMap env rec c key value req (.dict d) ph ser anc =
      seqAll (d.map (entryOut env rec (.map c key value req) (.dict d) key value ph ser anc)) >>= fun es =>
      mapRequired env (.map c key value req) anc req
        (es.foldl (fun a e => dictSet a e.1 e.2.1) []) (es.all (·.2.2)) >>= fun r =>
      if r.2 then .ok (.dict r.1) else .error (.structural ⟨.validation, anc, [], .dict r.1, .dict d⟩) := by
  have hn : isNull (.map c key value req) (.dict d) anc = .ok false :=
    isNull_nonEnum rfl (by simp) (by simp)
  unfold processMap
  simp only [ancOr_ne ha, hn, rawPre, hpre, mapLoop_eq, except_bind_ok, Bool.false_eq_true,
    if_false, except_throw, except_pure, Bool.true_and]
  cases seqAll (d.map (entryOut env rec (.map c key value req) (.dict d) key value ph ser anc)) <;> rfl

/-- The map machinery depends on the field only through the errors it produces. -/
theorem mapLoop_congr {env : Env} {rec : Proc} {f f' : Field} (h : mkErr f = mkErr f') :
    mapLoop env rec f = mapLoop env rec f' := by
  have hk : mapKey env rec f = mapKey env rec f' := by
    funext whole key ph ser anc k
    unfold mapKey
    rw [h]
  funext whole key value ph ser anc d
  induction d with
  | nil => rfl
  | cons e r ih =>
    funext acc valid
    obtain ⟨k, v⟩ := e
    rw [mapLoop, mapLoop, hk, ih]

theorem mapRequired_congr {env : Env} {f f' : Field} (h : mkErr f = mkErr f') :
    mapRequired env f = mapRequired env f' := by
  funext anc ks
  induction ks with
  | nil => rfl
  | cons k r ih =>
    funext acc valid
    rw [mapRequired, mapRequired, h, ih]

end Scheme
