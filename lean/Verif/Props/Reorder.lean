import Verif.Props.FieldFormat
import Verif.Props.Telling
import Verif.Props.Union
import Verif.Spec.Reorder
import Verif.Props.Access

/-! C68: the order of dict entries does not matter. -/

namespace Scheme

/-! ### the same data -/

mutual
theorem SameData.eqL {v w : Val} (x : Val) : SameData v w → pyEq v x = pyEq w x
  | .refl _ => rfl
  | .list h => by
    cases x with
    | list l => simp only [pyEq]; exact SameItems.eqL l h
    | _ => simp [pyEq, numOf]
  | .tuple h => by
    cases x with
    | tuple l => simp only [pyEq]; exact SameItems.eqL l h
    | _ => simp [pyEq, numOf]
  | .dict (d := d) (d' := d') e hp h => by
    cases x with
    | dict b =>
      have hl : d.length = d'.length := hp.length_eq.trans (SameEntries.len h)
      have h1 : pyEqD d b = pyEqD e b := by
        rw [Bool.eq_iff_iff, pyEqD_iff, pyEqD_iff]
        exact ⟨fun h x hx => h x (hp.mem_iff.2 hx), fun h x hx => h x (hp.mem_iff.1 hx)⟩
      simp only [pyEq, hl, h1, SameEntries.eqL b h]
    | _ => simp [pyEq, numOf]
theorem SameItems.eqL {l l' : List Val} (b : List Val) : SameItems l l' → pyEqL l b = pyEqL l' b
  | .nil => rfl
  | .cons h hr => by
    cases b with
    | nil => rfl
    | cons y b => simp only [pyEqL, SameData.eqL y h, SameItems.eqL b hr]
theorem SameEntries.len {l l' : List (Val × Val)} : SameEntries l l' → l.length = l'.length
  | .nil => rfl
  | .cons _ hr => by simp [SameEntries.len hr]
theorem SameEntries.eqL {l l' : List (Val × Val)} (b : List (Val × Val)) : SameEntries l l' → pyEqD l b = pyEqD l' b
  | .nil => rfl
  | .cons h hr => by
    simp only [pyEqD, SameEntries.eqL b hr]
    congr 2
    funext y
    rw [SameData.eqL y.2 h]
end

mutual
theorem SameData.eqR {v w : Val} (x : Val) : SameData v w → pyEq x v = pyEq x w
  | .refl _ => rfl
  | .list h => by
    cases x with
    | list l => simp only [pyEq]; exact SameItems.eqR l h
    | _ => simp [pyEq, numOf]
  | .tuple h => by
    cases x with
    | tuple l => simp only [pyEq]; exact SameItems.eqR l h
    | _ => simp [pyEq, numOf]
  | .dict (d := d) (d' := d') e hp h => by
    cases x with
    | dict b =>
      have hl : d.length = d'.length := hp.length_eq.trans (SameEntries.len h)
      have h1 : pyEqD b d = pyEqD b e := by
        rw [Bool.eq_iff_iff, pyEqD_iff, pyEqD_iff]
        refine ⟨fun h x hx => ?_, fun h x hx => ?_⟩
        · obtain ⟨y, hy, hxy⟩ := h x hx; exact ⟨y, hp.mem_iff.1 hy, hxy⟩
        · obtain ⟨y, hy, hxy⟩ := h x hx; exact ⟨y, hp.mem_iff.2 hy, hxy⟩
      have h2 : pyEqD b e = pyEqD b d' := by
        induction b with
        | nil => rfl
        | cons x b ih =>
          obtain ⟨k, y⟩ := x
          simp only [pyEqD]
          rw [SameEntries.anyR k y h]
          congr 1
          refine ih ?_
          rw [Bool.eq_iff_iff, pyEqD_iff, pyEqD_iff]
          refine ⟨fun h x hx => ?_, fun h x hx => ?_⟩
          · obtain ⟨y, hy, hxy⟩ := h x hx; exact ⟨y, hp.mem_iff.1 hy, hxy⟩
          · obtain ⟨y, hy, hxy⟩ := h x hx; exact ⟨y, hp.mem_iff.2 hy, hxy⟩
      simp only [pyEq, hl, h1, h2]
    | _ => simp [pyEq, numOf]
theorem SameItems.eqR {l l' : List Val} (b : List Val) : SameItems l l' → pyEqL b l = pyEqL b l'
  | .nil => rfl
  | .cons h hr => by
    cases b with
    | nil => rfl
    | cons y b => simp only [pyEqL, SameData.eqR y h, SameItems.eqR b hr]
theorem SameEntries.anyR {l l' : List (Val × Val)} (k y : Val) : SameEntries l l' →
    (l.any fun e => pyEq k e.1 && pyEq y e.2) = l'.any fun e => pyEq k e.1 && pyEq y e.2
  | .nil => rfl
  | .cons h hr => by
    simp only [List.any_cons, SameData.eqR y h, SameEntries.anyR k y hr]
end

mutual
theorem SameData.hash {v w : Val} : SameData v w → hashable v = hashable w
  | .refl _ => rfl
  | .list _ => rfl
  | .tuple h => by simp only [hashable]; exact SameItems.hash h
  | .dict _ _ _ => rfl
theorem SameItems.hash {l l' : List Val} : SameItems l l' → hashableL l = hashableL l'
  | .nil => rfl
  | .cons h hr => by simp only [hashableL, SameData.hash h, SameItems.hash hr]
end

theorem SameData.none_iff {v w : Val} (h : SameData v w) : v = .none ↔ w = .none := by
  cases h <;> simp

theorem SameData.isNone {v w : Val} (h : SameData v w) : v.isNone = w.isNone := by
  cases h <;> rfl

theorem SameItems.len {l l' : List Val} (h : SameItems l l') : l.length = l'.length := by
  induction l generalizing l' with
  | nil => cases h; rfl
  | cons x r ih => cases h with | cons _ hr => simp [ih hr]

theorem SameItems.get {l l' : List Val} (h : SameItems l l') {i : Nat} {x : Val} (hx : l[i]? = some x) :
    ∃ y, l'[i]? = some y ∧ SameData x y := by
  induction l generalizing l' i with
  | nil => cases hx
  | cons a r ih =>
    cases h with
    | cons h hr =>
      cases i with
      | zero => cases hx; exact ⟨_, rfl, h⟩
      | succ i => exact ih hr hx

theorem SameItems.mk {l l' : List Val} (hl : l.length = l'.length)
    (h : ∀ (i : Nat) x y, l[i]? = some x → l'[i]? = some y → SameData x y) : SameItems l l' := by
  induction l generalizing l' with
  | nil => cases l' with | nil => exact .nil | cons => cases hl
  | cons x r ih =>
    cases l' with
    | nil => cases hl
    | cons y r' =>
      exact .cons (h 0 x y rfl rfl) (ih (by simpa using hl) fun i a b ha hb => h (i + 1) a b ha hb)

/-! ### outcomes -/

/-- The second call succeeds as the first did, or rejects the type as the first did. -/
def Follows (r r' : Except Exn Val) : Prop :=
  (∀ w, r = .ok w → ∃ w', r' = .ok w' ∧ SameData w w') ∧ (RejectsType r → RejectsType r')

theorem Follows.refl (r : Except Exn Val) : Follows r r := ⟨fun w h => ⟨w, h, .refl w⟩, id⟩

theorem Follows.ok {w w' : Val} (h : SameData w w') : Follows (.ok w) (.ok w') :=
  ⟨fun x hx => by cases hx; exact ⟨w', rfl, h⟩, fun ⟨_, _, h⟩ => by cases h⟩

theorem Follows.mkErr (f : Field) (cls : ErrCls) (anc : List Str) (v v' : Val) (t : Str) (ps : List (Str × Str)) :
    Follows (.error (mkErr f cls anc v t ps)) (.error (mkErr f cls anc v' t ps)) := by
  refine ⟨fun w h => (by cases h), ?_⟩
  rintro ⟨e, he, h⟩
  unfold Scheme.mkErr at h ⊢
  split at h
  · cases h
  · split at h
    · cases h
    · cases h
      exact ⟨_, by exact he, rfl⟩

theorem Follows.py {e : PyErr} {r : Except Exn Val} : Follows (.error (.py e)) r :=
  ⟨fun w h => (by cases h), fun ⟨_, _, h⟩ => (by cases h)⟩

theorem Follows.bind {r r' : Except Exn Val} {k k' : Val → Except Exn Val} (h : Follows r r')
    (hk : ∀ w w', r = .ok w → SameData w w' → Follows (k w) (k' w')) : Follows (r >>= k) (r' >>= k') := by
  constructor
  · intro w hw
    rw [except_bind_eq_ok] at hw
    obtain ⟨x, hx, hw⟩ := hw
    obtain ⟨x', hx', hs⟩ := h.1 x hx
    rw [hx', except_bind_ok]
    exact (hk x x' hx hs).1 w hw
  · rintro ⟨e, he, hw⟩
    rw [except_bind_eq_error] at hw
    rcases hw with hw | ⟨x, hx, hw⟩
    · obtain ⟨e', he', h'⟩ := h.2 ⟨e, he, hw⟩
      exact ⟨e', he', by rw [h']; rfl⟩
    · obtain ⟨x', hx', hs⟩ := h.1 x hx
      rw [hx', except_bind_ok]
      exact (hk x x' hx hs).2 ⟨e, he, hw⟩

/-! ### leaves -/

theorem pyIn_same {v w : Val} (h : SameData v w) (l : List Val) : pyIn v l = pyIn w l := by
  unfold pyIn
  congr 1
  funext x
  exact h.eqL x

theorem isNull_reorder {f : Field} {v w : Val} (h : SameData v w) (anc : List Str) : isNull f v anc = isNull f w anc := by
  have : (nullView f v).isNone = (nullView f w).isNone := by
    unfold nullView
    split
    · rw [pyIn_same h]
      split
      · rfl
      · exact h.isNone
    · exact h.isNone
  unfold isNull
  split
  · rfl
  · rw [this]

variable {env : Env} {ph : Phase} {ser : Bool}

theorem decode_follows {c : Common} {k : Leaf} {v v' : Val} {anc : List Str} (h : SameData v v')
    (ho : OrderlyLeaf env k v) :
    Follows (decodeStep env (.leaf c k) k v ph ser anc) (decodeStep env (.leaf c k) k v' ph ser anc) := by
  unfold decodeStep
  split
  · cases h with
    | refl => exact .refl _
    | list h =>
      cases k with
      | decimal a b =>
        simp only [unserializeLeaf, toDec, ho _ _ h]
        split
        · exact .refl _
        · exact .mkErr ..
      | definition a =>
        simp only [unserializeLeaf]
        rw [ho _ _ (.list h)]
        split
        · exact .refl _
        · exact .mkErr ..
      | _ => first | exact Follows.mkErr .. | exact Follows.ok (.list h)
    | tuple h =>
      cases k with
      | decimal a b =>
        simp only [unserializeLeaf, toDec, ho _ _ h]
        split
        · exact .refl _
        · exact .mkErr ..
      | definition a =>
        simp only [unserializeLeaf]
        rw [ho _ _ (.tuple h)]
        split
        · exact .refl _
        · exact .mkErr ..
      | error => exact (ho _ rfl).elim
      | _ => first | exact Follows.mkErr .. | exact Follows.ok (.tuple h)
    | dict e hp h =>
      cases k with
      | definition a =>
        simp only [unserializeLeaf]
        rw [ho _ _ (.dict e hp h)]
        split
        · exact .refl _
        · exact .mkErr ..
      | surrogate => exact (ho _ rfl).elim
      | _ => first | exact Follows.mkErr .. | exact Follows.ok (.dict e hp h)
  · exact .ok h

theorem pre_follows {f : Field} {c : Common} {k : Leaf} {v v' : Val} {anc : List Str} (h : SameData v v')
    (hpre : c.pre = none) : Follows (preprocess env f c k v anc) (preprocess env f c k v' anc) := by
  unfold preprocess
  simp only [hpre]
  split
  · split
    · exact .ok h
    · cases h with
      | refl => exact .refl _
      | _ => exact .mkErr ..
  · exact .ok h

theorem const_follows {f : Field} {c : Common} {v v' : Val} {anc : List Str} (h : SameData v v') :
    Follows (checkConst f c v anc) (checkConst f c v' anc) := by
  unfold checkConst
  rw [h.eqL]
  split
  · exact .mkErr ..
  · exact .ok h

theorem validate_follows {f : Field} {k : Leaf} {v v' : Val} {anc : List Str} (h : SameData v v') :
    Follows (validateLeaf env f k v anc) (validateLeaf env f k v' anc) := by
  by_cases he : ∃ vals ign, k = .enumeration vals ign
  · obtain ⟨vals, ign, rfl⟩ := he
    simp only [validateLeaf, pyIn_same h]
    split
    · exact .ok h
    · exact .mkErr ..
  · cases h with
    | refl => exact .refl _
    | list h =>
      cases k <;> first | exact Follows.mkErr .. | exact Follows.ok (.list h) | exact absurd ⟨_, _, rfl⟩ he
    | tuple h =>
      cases k <;> first | exact Follows.mkErr .. | exact Follows.ok (.tuple h) | exact absurd ⟨_, _, rfl⟩ he
    | dict e hp h =>
      cases k <;> first | exact Follows.mkErr .. | exact Follows.ok (.dict e hp h) | exact absurd ⟨_, _, rfl⟩ he

theorem object_follows {f : Field} {v v' : Val} {anc : List Str} (hs : ∀ s, v ≠ .str s) (hs' : ∀ s, v' ≠ .str s)
    (hi : env.identify v = env.identify v') : Follows (serOut env f .object v anc) (serOut env f .object v' anc) := by
  have key : ∀ x, (∀ s, x ≠ .str s) → serOut env f .object x anc = match env.identify x with
      | some s => .ok (.str s)
      | none => .error (mkErr f .invalidType [c!"(unknown)"] x c!"invalid" []) := by
    intro x hx
    unfold serOut
    have : serializeLeaf env f .object x = match env.identify x with
        | some s => .ok (.str s)
        | none => .error (mkErr f .invalidType [c!"(unknown)"] x c!"invalid" []) := by
      cases x with
      | str s => exact absurd rfl (hx s)
      | _ => rfl
    rw [this]
    cases env.identify x with
    | some s => rfl
    | none =>
      split
      · rename_i heq
        have heq := Except.error.inj heq
        unfold mkErr at heq
        repeat' split at heq
        all_goals cases heq
      · rfl
  rw [key v hs, key v' hs', hi]
  split
  · exact .refl _
  · exact .mkErr ..

theorem encode_follows {c : Common} {k : Leaf} {v v' : Val} {anc : List Str} (h : SameData v v')
    (hi : k = .object → env.identify v = env.identify v') (hd : ∀ a b, k = .decimal a b → v = v') :
    Follows (encodeStep env (.leaf c k) k v ph ser anc) (encodeStep env (.leaf c k) k v' ph ser anc) := by
  unfold encodeStep
  split
  · by_cases ho : k = .object
    · subst ho
      cases h with
      | refl => exact .refl _
      | _ => exact object_follows (by simp) (by simp) (hi rfl)
    · by_cases hdec : ∃ a b, k = .decimal a b
      · obtain ⟨a, b, rfl⟩ := hdec
        rw [hd a b rfl]; exact .refl _
      · cases h with
        | refl => exact .refl _
        | list h =>
          cases k <;> first | exact Follows.py | exact Follows.ok (.list h) | exact absurd ⟨_, _, rfl⟩ hdec | exact absurd rfl ho
        | tuple h =>
          cases k <;> first | exact Follows.py | exact Follows.ok (.tuple h) | exact absurd ⟨_, _, rfl⟩ hdec | exact absurd rfl ho
        | dict e hp h =>
          cases k <;> first | exact Follows.py | exact Follows.ok (.dict e hp h) | exact absurd ⟨_, _, rfl⟩ hdec | exact absurd rfl ho
  · exact .ok h

theorem leaf_follows {c : Common} {k : Leaf} {v v' : Val} {anc : List Str} (h : SameData v v') (hpre : c.pre = none)
    (ho : OrderlyLeaf env k v) : Follows (processLeaf env c k v ph ser anc) (processLeaf env c k v' ph ser anc) := by
  rw [processLeaf_eq, processLeaf_eq, isNull_reorder h]
  cases isNull (.leaf c k) v' (ancOr (.leaf c k) anc) with
  | error e => exact .refl _
  | ok b =>
    simp only [except_bind_ok]
    cases b with
    | true => exact .refl _
    | false =>
      simp only [Bool.false_eq_true, if_false]
      refine (decode_follows h ho).bind fun v1 v1' _ h1 => (pre_follows h1 hpre).bind fun v2 v2' _ h2 =>
        (const_follows h2).bind fun v3 v3' _ h3 => (validate_follows h3).bind fun v4 v4' hv h4 => encode_follows h4 ?_ ?_
      · rintro rfl; exact ho _ _ h4
      · rintro a b rfl
        have : ∃ d, v4 = .decimal d := by
          simp only [validateLeaf] at hv
          repeat' split at hv
          all_goals first | (cases hv; done) | (cases hv; exact ⟨_, rfl⟩)
        obtain ⟨d, rfl⟩ := this
        cases h4; rfl

/-! ### containers reject a type only by its kind -/

theorem mkErr_cls {f : Field} {cls : ErrCls} {anc : List Str} {v : Val} {t : Str} {ps : List (Str × Str)} {e : SErr}
    (h : (Except.error (mkErr f cls anc v t ps) : Except Exn Val) = .error (.structural e)) : e.cls = cls := by
  have h := Except.error.inj h
  unfold mkErr at h
  repeat' split at h
  all_goals cases h
  rfl

variable {rec : Proc}

theorem isNull_cls {f : Field} {v : Val} {anc : List Str} {e : SErr} (h : isNull f v anc = .error (.structural e)) :
    e.cls = .validation := by
  unfold isNull at h
  repeat' split at h
  all_goals first | (cases h; done) | skip
  have h := Except.error.inj h
  unfold mkErr at h
  repeat' split at h
  all_goals cases h
  rfl

theorem sequence_cls {c : Common} {item : Field} {mn mx : Option Nat} {u : Bool} {l : List Val} {anc : List Str} {e : SErr}
    (h : processSequence env rec c item mn mx u (.list l) ph ser anc = .error (.structural e)) : e.cls = .validation := by
  unfold processSequence at h
  rw [except_bind_eq_error] at h
  rcases h with h | ⟨b, _, h⟩
  · exact isNull_cls h
  split at h
  · cases h
  simp only at h
  rw [except_bind_eq_error] at h
  rcases h with h | ⟨v1, _, h⟩
  · exact (rawPre_raw h).elim
  split at h
  · next l _ =>
    simp only [except_throw, except_pure] at h
    split at h
    · exact mkErr_cls h
    split at h
    · exact mkErr_cls h
    rw [except_bind_eq_error, seqLoop_eq] at h
    rcases h with h | ⟨r, hl, h⟩
    · exact (collectAll_raw h).elim
    split at h
    · cases h; rfl
    · repeat' split at h
      all_goals first | (cases h; done) | exact mkErr_cls h
  · cases h

theorem tuple_cls {c : Common} {fs : List Field} {v : Val} (hv : (∃ l, v = .list l) ∨ ∃ l, v = .tuple l) {anc : List Str}
    {e : SErr} (h : processTuple env rec c fs v ph ser anc = .error (.structural e)) : e.cls = .validation := by
  unfold processTuple at h
  rw [except_bind_eq_error] at h
  rcases h with h | ⟨b, _, h⟩
  · exact isNull_cls h
  split at h
  · cases h
  have body : ∀ (i : Val) (l : List Val),
      (if l.length ≠ fs.length then .error (mkErr (.tuple c fs) .validation (ancOr (.tuple c fs) anc) i c!"length" [(c!"length", natStr fs.length)])
        else tupLoop env rec ph ser (ancOr (.tuple c fs) anc) 0 fs l >>= fun r => if r.2 then .ok (.tuple r.1)
          else .error (.structural ⟨.validation, ancOr (.tuple c fs) anc, [], .list r.1, i⟩) : Except Exn Val) =
        .error (.structural e) → e.cls = .validation := by
    intro i l h
    split at h
    · exact mkErr_cls h
    · rw [except_bind_eq_error, tupLoop_eq] at h
      rcases h with h | ⟨r, hl, h⟩
      · exact (collectAll_raw h).elim
      split at h
      · cases h
      · cases h; rfl
  have go : (rawPre env c v >>= fun i => match i with
        | .list l => (if l.length ≠ fs.length then .error (mkErr (.tuple c fs) .validation (ancOr (.tuple c fs) anc) (.list l) c!"length" [(c!"length", natStr fs.length)])
            else tupLoop env rec ph ser (ancOr (.tuple c fs) anc) 0 fs l >>= fun r => if r.2 then .ok (.tuple r.1)
              else .error (.structural ⟨.validation, ancOr (.tuple c fs) anc, [], .list r.1, .list l⟩) : Except Exn Val)
        | .tuple l => (if l.length ≠ fs.length then .error (mkErr (.tuple c fs) .validation (ancOr (.tuple c fs) anc) (.tuple l) c!"length" [(c!"length", natStr fs.length)])
            else tupLoop env rec ph ser (ancOr (.tuple c fs) anc) 0 fs l >>= fun r => if r.2 then .ok (.tuple r.1)
              else .error (.structural ⟨.validation, ancOr (.tuple c fs) anc, [], .list r.1, .tuple l⟩) : Except Exn Val)
        | _ => .error (.py .typeError)) = .error (.structural e) → e.cls = .validation := by
    intro h
    rw [except_bind_eq_error] at h
    rcases h with h | ⟨i, hi, h⟩
    · exact (rawPre_raw h).elim
    · split at h
      · exact body _ _ h
      · exact body _ _ h
      · cases h
  rcases hv with ⟨l, rfl⟩ | ⟨l, rfl⟩
  · exact go h
  · exact go h

theorem mapRequired_cls {f : Field} {anc : List Str} (l : List Val) (acc : List (Val × Val)) (b : Bool) (e : SErr) :
    mapRequired env f anc l acc b ≠ .error (.structural e) := by
  induction l generalizing acc b with
  | nil => intro h; cases h
  | cons k r ih =>
    simp only [mapRequired]
    split
    · split
      · exact ih _ _
      · split
        · exact ih _ _
        · rename_i hx
          intro h
          exact hx e (Except.error.inj h)
    · intro h; cases h

theorem mapLoop_cls {f : Field} {whole : Val} {key : Option Field} {value : Field} {anc : List Str} (d acc : List (Val × Val))
    (b : Bool) (e : SErr) (h : mapLoop env rec f whole key value ph ser anc d acc b = .error (.structural e)) :
    e.cls = .validation := by
  induction d generalizing acc b with
  | nil => cases h
  | cons x r ih =>
    obtain ⟨k, v⟩ := x
    simp only [mapLoop] at h
    rw [except_bind_eq_error] at h
    rcases h with h | ⟨k', _, h⟩
    · unfold mapKey at h
      split at h
      · rw [except_bind_eq_error] at h
        rcases h with h | ⟨s, _, h⟩
        · unfold keyStep at h; split at h <;> cases h
        · split at h
          · cases h
          · exact mkErr_cls h
          · rename_i hx _
            cases h
            exact (hx _ rfl).elim
      · split at h
        · cases h
        · exact mkErr_cls h
    rw [except_bind_eq_error] at h
    rcases h with h | ⟨s, _, h⟩
    · unfold keyStep at h; split at h <;> cases h
    rw [except_bind_eq_error] at h
    rcases h with h | ⟨y, _, h⟩
    · exact (collect_raw h).elim
    split at h
    · exact ih _ _ h
    · cases h

theorem map_cls {c : Common} {key : Option Field} {value : Field} {req : List Val} {d : List (Val × Val)} {anc : List Str}
    {e : SErr} (h : processMap env rec c key value req (.dict d) ph ser anc = .error (.structural e)) :
    e.cls = .validation := by
  unfold processMap at h
  rw [except_bind_eq_error] at h
  rcases h with h | ⟨b, _, h⟩
  · exact isNull_cls h
  split at h
  · cases h
  simp only at h
  rw [except_bind_eq_error] at h
  rcases h with h | ⟨v1, _, h⟩
  · exact (rawPre_raw h).elim
  split at h
  · rw [except_bind_eq_error] at h
    rcases h with h | ⟨r, _, h⟩
    · exact mapLoop_cls _ _ _ _ h
    rw [except_bind_eq_error] at h
    rcases h with h | ⟨r, _, h⟩
    · exact (mapRequired_cls _ _ _ _ h).elim
    split at h
    · cases h
    · cases h; rfl
  · cases h

theorem structUnknown_cls {f : Field} {anc : List Str} (l : List Val) (st : SState) (e : SErr) :
    structUnknown env f anc l st ≠ .error (.structural e) := by
  induction l generalizing st with
  | nil => intro h; cases h
  | cons k r ih =>
    simp only [structUnknown]
    split
    · exact ih _
    · rename_i hx
      intro h
      exact hx e (Except.error.inj h)

theorem structBody_cls {f : Field} {strict : Bool} {order : List Str} {defn : List (Str × Field)}
    {d : List (Val × Val)} {part : Bool} {anc : List Str} {e : SErr} (hnd : order.Nodup)
    (h : structBody env rec f strict order defn d ph ser part anc = .error (.structural e)) : e.cls = .validation := by
  rw [structBody_eq _ _ _ _ _ _ _ _ _ _ _ hnd, except_bind_eq_error] at h
  rcases h with h | ⟨ms, hms, h⟩
  · obtain ⟨n, _, hn⟩ := List.mem_map.1 (seqAll_raw h)
    exact (memberOut_raw hn).elim
  rw [except_bind_eq_error] at h
  rcases h with h | ⟨st, _, h⟩
  · split at h
    · exact (structUnknown_cls _ _ _ h).elim
    · cases h
  · split at h
    · cases h
    · cases h; rfl

theorem structure_cls {c : Common} {defn : List (Str × Field)} {strict part : Bool} {ko : List Str} {d : List (Val × Val)}
    {anc : List Str} {e : SErr} (hpre : c.pre = none) (hnd : (visited defn ko).Nodup)
    (h : processStructure env rec c defn strict ko part (.dict d) ph ser anc = .error (.structural e)) :
    e.cls = .validation := by
  unfold processStructure at h
  rw [except_bind_eq_error] at h
  rcases h with h | ⟨b, hb, h⟩
  · exact isNull_cls h
  split at h
  · cases h
  simp only [structPre, hpre, except_bind_ok] at h
  have ho : (if ko.isEmpty then defn.map (·.1) else ko) = visited defn ko := by
    unfold visited; cases ko <;> simp
  rw [ho] at h
  exact structBody_cls hnd h

/-! ### dicts -/

theorem perm_lift {α β : Type} {f : α → β} {z : List α} {l e : List β} (hp : l.Perm e) (hz : z.map f = l) :
    ∃ z', z.Perm z' ∧ z'.map f = e := by
  induction hp generalizing z with
  | nil => exact ⟨z, .refl _, hz⟩
  | cons x _ ih =>
    cases z with
    | nil => cases hz
    | cons a z =>
      rw [List.map_cons, List.cons.injEq] at hz
      obtain ⟨z', h1, h2⟩ := ih hz.2
      exact ⟨a :: z', h1.cons a, by rw [List.map_cons, h2, hz.1]⟩
  | swap x y l =>
    match z, hz with
    | a :: b :: z, hz =>
      simp only [List.map_cons, List.cons.injEq] at hz
      exact ⟨b :: a :: z, .swap .., by simp [hz]⟩
  | trans _ _ ih1 ih2 =>
    obtain ⟨z1, h1, h2⟩ := ih1 hz
    obtain ⟨z2, h3, h4⟩ := ih2 h2
    exact ⟨z2, h1.trans h3, h4⟩

theorem SameEntries.keys {d d' : List (Val × Val)} (h : SameEntries d d') : d.map (·.1) = d'.map (·.1) := by
  induction d generalizing d' with
  | nil => cases h; rfl
  | cons x r ih => cases h with | cons _ hr => simp [ih hr]

theorem SameEntries.mem {d d' : List (Val × Val)} (h : SameEntries d d') {k v : Val} (hm : (k, v) ∈ d) :
    ∃ v', (k, v') ∈ d' ∧ SameData v v' := by
  induction d generalizing d' with
  | nil => cases hm
  | cons x r ih =>
    cases h with
    | cons hv hr =>
      rcases List.mem_cons.1 hm with e | hm
      · cases e; exact ⟨_, List.mem_cons_self .., hv⟩
      · obtain ⟨v', h1, h2⟩ := ih hr hm
        exact ⟨v', List.mem_cons_of_mem _ h1, h2⟩

theorem SameEntries.perm {d e e' : List (Val × Val)} (h : SameEntries d e) (hp : e.Perm e') :
    ∃ d', d.Perm d' ∧ SameEntries d' e' := by
  induction hp generalizing d with
  | nil => cases h; exact ⟨[], .refl _, .nil⟩
  | cons x _ ih =>
    cases h with
    | cons hv hr =>
      obtain ⟨d', h1, h2⟩ := ih hr
      exact ⟨_ :: d', h1.cons _, .cons hv h2⟩
  | swap x y l =>
    cases h with
    | cons hv hr => cases hr with
      | cons hv' hr => exact ⟨_ :: _ :: _, .swap .., .cons hv' (.cons hv hr)⟩
  | trans _ _ ih1 ih2 =>
    obtain ⟨d1, h1, h2⟩ := ih1 h
    obtain ⟨d2, h3, h4⟩ := ih2 h2
    exact ⟨d2, h1.trans h3, h4⟩

theorem given_reorder {d e d' : List (Val × Val)} (hnd : (d.map (·.1)).Nodup) (hp : d.Perm e) (h : SameEntries e d')
    (name : Str) : (given d name = none ∧ given d' name = none) ∨
      ∃ x x', given d name = some x ∧ given d' name = some x' ∧ SameData x x' := by
  have hnd' : (d'.map (·.1)).Nodup := by rw [← h.keys]; exact (hp.map _).nodup_iff.1 hnd
  cases hg : given d name with
  | some x =>
    have hm := given_mem_str hg
    obtain ⟨x', h1, h2⟩ := h.mem (hp.mem_iff.1 hm)
    exact .inr ⟨x, x', rfl, given_of_mem_str hnd' h1, h2⟩
  | none =>
    cases hg' : given d' name with
    | none => exact .inl ⟨rfl, rfl⟩
    | some x' =>
      have hm : Val.str name ∈ d'.map (·.1) := List.mem_map.2 ⟨_, given_mem_str hg', rfl⟩
      rw [← h.keys, ← (hp.map _).mem_iff] at hm
      obtain ⟨⟨k, y⟩, hy, rfl⟩ := List.mem_map.1 hm
      rw [given_of_mem_str hnd hy] at hg
      cases hg

theorem names_reorder {d e d' : List (Val × Val)} (hp : d.Perm e) (h : SameEntries e d') {names : List Str}
    (hn : ∀ e ∈ d, ∃ name ∈ names, e.1 = .str name) : ∀ e ∈ d', ∃ name ∈ names, e.1 = .str name := by
  intro x hx
  have hm : x.1 ∈ d'.map (·.1) := List.mem_map.2 ⟨x, hx, rfl⟩
  rw [← h.keys, ← (hp.map _).mem_iff] at hm
  obtain ⟨y, hy, he⟩ := List.mem_map.1 hm
  rw [← he]
  exact hn y hy

/-- The filled slots of two structures hold the same data. -/
def SameSlot (r r' : Option Val) : Prop := (r = none ∧ r' = none) ∨ ∃ w w', r = some w ∧ r' = some w' ∧ SameData w w'

theorem slot_reorder {n : Nat} {defn : List (Str × Field)} {d e d' : List (Val × Val)} (hnd : (d.map (·.1)).Nodup)
    (hp : d.Perm e) (h : SameEntries e d') {anc : List Str} {name : Str} {r : Option Val}
    (ih : ∀ g c x x', Declares env defn name g c → memberInput c (given d name) ph false = some x → SameData x x' →
      ∀ anc w, process env n g x ph ser anc = .ok w → ∃ w', process env n g x' ph ser anc = .ok w' ∧ SameData w w')
    (hs : SlotOk env n defn d ph ser false anc name r) :
    ∃ r', SlotOk env n defn d' ph ser false anc name r' ∧ SameSlot r r' := by
  obtain ⟨g, c, hd, hm, hs⟩ := hs
  rcases given_reorder hnd hp h name with ⟨h1, h2⟩ | ⟨x, x', h1, h2, hx⟩
  · rcases hs with ⟨h3, rfl⟩ | ⟨v, w, h3, rfl, hp⟩
    · exact ⟨none, ⟨g, c, hd, by rw [h2, ← h1]; exact hm, .inl ⟨by rw [h1] at h3; rw [h2]; exact h3, rfl⟩⟩, .inl ⟨rfl, rfl⟩⟩
    · exact ⟨some w, ⟨g, c, hd, by rw [h2, ← h1]; exact hm, .inr ⟨v, w, by rw [h2, ← h1]; exact h3, rfl, hp⟩⟩,
        .inr ⟨w, w, rfl, rfl, .refl w⟩⟩
  · have hm' : ¬ memberMissing c (given d' name) ph false := by rw [h2]; exact fun h => by cases h.1
    rw [h1, memberInput_given] at hs
    rcases hs with ⟨h3, rfl⟩ | ⟨v, w, h3, rfl, hp⟩
    · refine ⟨none, ⟨g, c, hd, hm', .inl ⟨?_, rfl⟩⟩, .inl ⟨rfl, rfl⟩⟩
      rw [h2, memberInput_given, ← hx.isNone]
      split at h3
      · rename_i hc; rw [if_pos hc]
      · cases h3
    · obtain ⟨w', hw', hww⟩ := ih g c v x' hd (by rw [h1, memberInput_given]; exact h3) (by
        split at h3
        · cases h3
        · cases h3; exact hx) _ _ hp
      refine ⟨some w', ⟨g, c, hd, hm', .inr ⟨x', w', ?_, rfl, hw'⟩⟩, .inr ⟨w, w', rfl, rfl, hww⟩⟩
      rw [h2, memberInput_given, ← hx.isNone]
      split at h3
      · cases h3
      · rename_i hc; rw [if_neg hc]

theorem slots_reorder {n : Nat} {defn : List (Str × Field)} {d' : List (Val × Val)} {anc : List Str}
    {slots : List (Str × Option Val)}
    (h : ∀ x ∈ slots, ∃ r', SlotOk env n defn d' ph ser false anc x.1 r' ∧ SameSlot x.2 r') :
    ∃ slots' : List (Str × Option Val), slots'.map (·.1) = slots.map (·.1) ∧
      (∀ x ∈ slots', SlotOk env n defn d' ph ser false anc x.1 x.2) ∧
      SameEntries (slotDict slots) (slotDict slots') := by
  induction slots with
  | nil => exact ⟨[], rfl, by simp, .nil⟩
  | cons x r ih =>
    obtain ⟨r', h1, h2⟩ := h x (List.mem_cons_self ..)
    obtain ⟨slots', h3, h4, h5⟩ := ih fun y hy => h y (List.mem_cons_of_mem _ hy)
    refine ⟨(x.1, r') :: slots', by simp [h3], ?_, ?_⟩
    · intro y hy
      rcases List.mem_cons.1 hy with rfl | hy
      · exact h1
      · exact h4 y hy
    · obtain ⟨nm, o⟩ := x
      rcases h2 with ⟨h6, h7⟩ | ⟨w, w', h6, h7, h8⟩
      · simp only at h6 h7
        subst h6 h7
        exact h5
      · simp only at h6 h7
        subst h6 h7
        exact .cons h8 h5

theorem keyOk_out {n : Nat} {key : Option Field} {anc : List Str} {k x : Val} (h : KeyOk env n ph ser anc key k x) :
    KeyOut env ph ser key k x := by
  cases h with
  | text s => rfl
  | _ => exact ⟨_, _, ‹_›⟩

theorem entries_reorder {n : Nat} {key : Option Field} {value : Field} {anc : List Str} {z : List ((Val × Val) × Val × Val)}
    {e d' : List (Val × Val)} (hz : z.map (·.1) = e) (h : SameEntries e d')
    (hok : ∀ x ∈ z, KeyOk env n ph ser anc key x.1.1 x.2.1 ∧ hashable x.2.1 = true ∧
      EntryOk env n ph ser anc value x.2.1 x.1.2 x.2.2)
    (ih : ∀ x ∈ z, ∀ g x' anc w, resolve env value = some g → SameData x.1.2 x' → process env n g x.1.2 ph ser anc = .ok w →
      ∃ w', process env n g x' ph ser anc = .ok w' ∧ SameData w w') :
    ∃ es' : List (Val × Val), es'.length = d'.length ∧
      (∀ (i : Nat) k v, d'[i]? = some (k, v) → ∃ k' r, es'[i]? = some (k', r) ∧ KeyOk env n ph ser anc key k k' ∧
        hashable k' = true ∧ EntryOk env n ph ser anc value k' v r) ∧
      SameEntries (z.map (·.2)) es' := by
  induction z generalizing e d' with
  | nil => subst hz; cases h; exact ⟨[], rfl, by simp, .nil⟩
  | cons x z iz =>
    obtain ⟨⟨k, v⟩, k', r⟩ := x
    subst hz
    cases h with
    | cons hv hr =>
      rename_i v' d''
      obtain ⟨es', h1, h2, h3⟩ := iz rfl hr (fun y hy => hok y (List.mem_cons_of_mem _ hy))
        (fun y hy => ih y (List.mem_cons_of_mem _ hy))
      obtain ⟨hk, hh, g, st, hg, hst, hp⟩ := hok _ (List.mem_cons_self ..)
      obtain ⟨r', hp', hrr⟩ := ih _ (List.mem_cons_self ..) g v' _ _ hg hv hp
      refine ⟨(k', r') :: es', by simp [h1], ?_, .cons hrr h3⟩
      intro i a b hi
      cases i with
      | zero => cases hi; exact ⟨k', r', rfl, hk, hh, g, st, hg, hst, hp'⟩
      | succ i => exact h2 i a b hi

/-! ### processing -/

theorem list_of_index {α : Type} (n : Nat) {Q : Nat → α → Prop} (h : ∀ i, i < n → ∃ r, Q i r) :
    ∃ rs : List α, rs.length = n ∧ ∀ (i : Nat) r, rs[i]? = some r → Q i r := by
  induction n generalizing Q with
  | zero => exact ⟨[], rfl, by simp⟩
  | succ n ih =>
    obtain ⟨r, hr⟩ := h 0 (by omega)
    obtain ⟨rs, h1, h2⟩ := ih (Q := fun i r => Q (i + 1) r) fun i hi => h (i + 1) (by omega)
    refine ⟨r :: rs, by simp [h1], ?_⟩
    intro i x hx
    cases i with
    | zero => cases hx; exact hr
    | succ i => exact h2 i x hx

/-- Processing data whose dict entries are in another order. -/
theorem process_follows {n : Nat} {f : Field} {v v' : Val} {anc : List Str} (hs : SameData v v')
    (ho : ∀ g w, Involves env ph f v g w → Orderly env ph ser g w) :
    Follows (process env n f v ph ser anc) (process env n f v' ph ser anc) := by
  induction n generalizing f v v' anc with
  | zero => exact .py
  | succ n ih =>
    obtain ⟨hpre, hov⟩ := ho f v .here
    have ih' : ∀ g x x', Calls env ph false f v g x → SameData x x' → ∀ anc,
        Follows (process env n g x ph ser anc) (process env n g x' ph ser anc) :=
      fun g x x' hc hx anc => ih hx fun g' w' hi => ho g' w' (.call hc hi)
    cases f with
    | undef s => exact .py
    | leaf c k => exact leaf_follows hs (hpre c rfl) hov
    | sequence c item mn mx u =>
      have hpre := hpre c rfl
      cases hs with
      | refl => exact .refl _
      | list hl =>
        rename_i l l'
        refine ⟨?_, fun ⟨e, he, h⟩ => by rw [sequence_cls h] at he; cases he⟩
        intro w hw
        rcases (seq_ok hpre).1 hw with ⟨h, _⟩ | ⟨l0, rs, h0, rfl, h1, h2, h3, h4, h5⟩
        · cases h
        cases h0
        have hci : containerInput env c (.list l) = some (.list l) := by unfold containerInput; rw [hpre]
        obtain ⟨rs', hlen, hrs'⟩ := list_of_index l.length (Q := fun i r' => ∃ x' r, l'[i]? = some x' ∧ rs[i]? = some r ∧
            SameData r r' ∧ ∃ g, resolve env item = some g ∧
            process env n g x' ph ser (ancOr (.sequence c item mn mx u) anc ++ [idxStep i]) = .ok r') (by
          intro i hi
          have hx := List.getElem?_eq_getElem hi
          have hr := List.getElem?_eq_getElem (l := rs) (i := i) (by omega)
          obtain ⟨g, hg, hp⟩ := h4 i _ _ hx hr
          obtain ⟨x', hx', hxx⟩ := hl.get hx
          obtain ⟨r', hp', hrr⟩ := (ih' g _ _ (.item hci (List.getElem_mem hi) hg) hxx _).1 _ hp
          exact ⟨r', x', _, hx', hr, hrr, g, hg, hp'⟩)
        have hsame : SameItems rs rs' := by
          refine .mk (by omega) fun i a b ha hb => ?_
          obtain ⟨_, r, _, hr, hrr, _⟩ := hrs' i b hb
          rw [hr] at ha; cases ha; exact hrr
        refine ⟨.list rs', (seq_ok hpre).2 (.inr ⟨l', rs', rfl, rfl, by rw [hlen, hl.len], by rw [← hl.len]; exact h2,
          by rw [← hl.len]; exact h3, ?_, ?_⟩), .list hsame⟩
        · intro i x r hx hr
          obtain ⟨x', _, hx', _, _, g, hg, hp⟩ := hrs' i r hr
          rw [hx] at hx'; cases hx'
          exact ⟨g, hg, hp⟩
        · intro hu
          obtain ⟨h6, h7⟩ := h5 hu
          refine ⟨?_, ?_⟩
          · intro r hr
            obtain ⟨i, hi⟩ := List.getElem?_of_mem hr
            obtain ⟨_, r0, _, hr0, hrr, _⟩ := hrs' i r hi
            rw [← hrr.hash]
            exact h6 _ (List.mem_of_getElem? hr0)
          · rw [List.pairwise_iff_getElem] at h7 ⊢
            intro i j hi hj hij
            have a := h7 i j (by omega) (by omega) hij
            obtain ⟨_, r0, _, hr0, hr1, _⟩ := hrs' i _ (List.getElem?_eq_getElem hi)
            obtain ⟨_, s0, _, hs0, hs1, _⟩ := hrs' j _ (List.getElem?_eq_getElem hj)
            rw [List.getElem?_eq_getElem (by omega)] at hr0 hs0
            cases hr0; cases hs0
            rw [← hr1.eqL, ← hs1.eqR]; exact a
      | tuple hl => exact .mkErr ..
      | dict e hp hl => exact .mkErr ..
    | tuple c fs =>
      have hpre := hpre c rfl
      have go : ∀ l l', SameItems l l' → (v = .list l ∧ v' = .list l') ∨ (v = .tuple l ∧ v' = .tuple l') →
          Follows (process env (n + 1) (.tuple c fs) v ph ser anc) (process env (n + 1) (.tuple c fs) v' ph ser anc) := by
        intro l l' hl hvv
        have hv : v = .list l ∨ v = .tuple l := hvv.imp And.left And.left
        have hv' : v' = .list l' ∨ v' = .tuple l' := hvv.imp And.right And.right
        refine ⟨?_, fun ⟨e, he, h⟩ => by rw [tuple_cls (hv.imp (⟨l, ·⟩) (⟨l, ·⟩)) h] at he; cases he⟩
        intro w hw
        rcases (tup_ok hpre).1 hw with ⟨h, _⟩ | ⟨l0, rs, h0, rfl, h1, h2, h3⟩
        · rcases hv with rfl | rfl <;> cases h
        have : l0 = l := by
          rcases hv with rfl | rfl <;> rcases h0 with h | h <;> cases h <;> rfl
        subst this
        have hci : containerInput env c v = some v := by unfold containerInput; rw [hpre]
        obtain ⟨rs', hlen, hrs'⟩ := list_of_index l0.length (Q := fun i r' => ∃ f x' r, fs[i]? = some f ∧ l'[i]? = some x' ∧
            rs[i]? = some r ∧ SameData r r' ∧ ∃ g, resolve env f = some g ∧
            process env n g x' ph ser (ancOr (.tuple c fs) anc ++ [idxStep i]) = .ok r') (by
          intro i hi
          have hx := List.getElem?_eq_getElem hi
          have hif : i < fs.length := by omega
          have hf := List.getElem?_eq_getElem hif
          obtain ⟨g, r, hg, hr, hp⟩ := h3 i _ _ hf hx
          obtain ⟨x', hx', hxx⟩ := hl.get hx
          have hcall : Calls env ph false (.tuple c fs) v g l0[i] := by
            refine .tuple hci hv (List.mem_of_getElem? (i := i) (a := (fs[i], l0[i])) ?_) hg
            rw [List.getElem?_zip_eq_some]
            exact ⟨hf, hx⟩
          obtain ⟨r', hp', hrr⟩ := (ih' g _ _ hcall hxx _).1 _ hp
          exact ⟨r', _, x', r, hf, hx', hr, hrr, g, hg, hp'⟩)
        refine ⟨.tuple rs', (tup_ok hpre).2 (.inr ⟨l', rs', hv', rfl, by rw [← hl.len, h1], by rw [hlen, hl.len], ?_⟩),
          .tuple (.mk (by omega) fun i a b ha hb => ?_)⟩
        · intro i f x hf hx
          have hi : i < rs'.length := by
            rw [hlen, hl.len]; exact (List.getElem?_eq_some_iff.1 hx).1
          obtain ⟨f', x', _, hf', hx', _, _, g, hg, hp⟩ := hrs' i _ (List.getElem?_eq_getElem hi)
          rw [hf] at hf'; cases hf'
          rw [hx] at hx'; cases hx'
          exact ⟨g, _, hg, List.getElem?_eq_getElem hi, hp⟩
        · obtain ⟨_, _, r, _, _, hr, hrr, _⟩ := hrs' i b hb
          rw [hr] at ha; cases ha; exact hrr
      cases hs with
      | refl => exact .refl _
      | list hl => exact go _ _ hl (.inl ⟨rfl, rfl⟩)
      | tuple hl => exact go _ _ hl (.inr ⟨rfl, rfl⟩)
      | dict e hp hl => exact .mkErr ..
    | union c fs =>
      have loop : ∀ (gs : List Field) A, (∀ g ∈ gs, g ∈ fs) →
          (∀ w, unionLoop env (process env n) v ph ser A gs = some (.ok w) →
            ∃ w', unionLoop env (process env n) v' ph ser A gs = some (.ok w') ∧ SameData w w') ∧
          (unionLoop env (process env n) v ph ser A gs = none → unionLoop env (process env n) v' ph ser A gs = none) ∧
          (∀ r, unionLoop env (process env n) v ph ser A gs = some r → ¬ RejectsType r) := by
        intro gs A hm
        induction gs with
        | nil => exact ⟨fun r h => (by cases h), fun _ => rfl, fun r h => (by cases h)⟩
        | cons p gs ig =>
          have ig := ig fun g hg => hm g (List.mem_cons_of_mem _ hg)
          have hp := hm p (List.mem_cons_self ..)
          have hcall : Follows (callChild env (process env n) p v ph ser A) (callChild env (process env n) p v' ph ser A) := by
            unfold callChild
            split
            · exact .refl _
            · exact ih' _ _ _ (.union hp ‹_›) hs _
          by_cases hr : RejectsType (callChild env (process env n) p v ph ser A)
          · have hr' := hcall.2 hr
            have e1 := unionLoop_append [p] gs (env := env) (rec := process env n) (v := v) (ph := ph) (ser := ser) (anc := A)
              (by simpa using hr)
            have e2 := unionLoop_append [p] gs (env := env) (rec := process env n) (v := v') (ph := ph) (ser := ser) (anc := A)
              (by simpa using hr')
            simp only [List.singleton_append] at e1 e2
            rw [e1, e2]; exact ig
          · have stop : ∀ x, ¬ RejectsType (callChild env (process env n) p x ph ser A) →
                unionLoop env (process env n) x ph ser A (p :: gs) = some (callChild env (process env n) p x ph ser A) := by
              intro x hx
              simp only [unionLoop]
              split
              · rename_i e he
                rw [if_neg fun h => hx ⟨e, h, he⟩, he]
              · rfl
            rw [stop v hr]
            refine ⟨?_, fun h => (by cases h), fun r h => by cases h; exact hr⟩
            intro w hw
            obtain ⟨w', hw', hww⟩ := hcall.1 w (Option.some.inj hw)
            refine ⟨w', ?_, hww⟩
            rw [stop v' (by rw [hw']; rintro ⟨_, _, h⟩; cases h), hw']
      show Follows (processUnion env (process env n) c fs v ph ser anc) (processUnion env (process env n) c fs v' ph ser anc)
      unfold processUnion
      simp only [isNull_reorder hs]
      cases isNull (.union c fs) v' (ancOr (.union c fs) anc) with
      | error e => exact .refl _
      | ok b =>
        simp only [except_bind_ok]
        split
        · exact .refl _
        · obtain ⟨l1, l2, l3⟩ := loop fs (ancOr (.union c fs) anc) fun _ => id
          cases hu : unionLoop env (process env n) v ph ser (ancOr (.union c fs) anc) fs with
          | none => rw [l2 hu]; exact .mkErr ..
          | some r =>
            refine ⟨fun w hw => ?_, fun hr => (l3 r hu hr).elim⟩
            simp only at hw
            subst hw
            obtain ⟨w', h1, h2⟩ := l1 w hu
            exact ⟨w', by rw [h1], h2⟩
    | map c key value req =>
      have hpre := hpre c rfl
      cases hs with
      | refl => exact .refl _
      | list hl => exact .mkErr ..
      | tuple hl => exact .mkErr ..
      | dict e hp hl =>
        rename_i d d'
        refine ⟨?_, fun ⟨e, he, h⟩ => by rw [map_cls h] at he; cases he⟩
        intro w hw
        rcases (map_ok hpre).1 hw with ⟨h, _⟩ | ⟨d0, es, h0, h1, h2, out, rfl, h3, h4⟩
        · cases h
        cases h0
        have hci : containerInput env c (.dict d) = some (.dict d) := by unfold containerInput; rw [hpre]
        have hz1 : (d.zip es).map (·.1) = d := List.map_fst_zip (by omega)
        have hz2 : (d.zip es).map (·.2) = es := List.map_snd_zip (by omega)
        have hzok : ∀ x ∈ d.zip es, KeyOk env n ph ser (ancOr (.map c key value req) anc) key x.1.1 x.2.1 ∧
            hashable x.2.1 = true ∧ EntryOk env n ph ser (ancOr (.map c key value req) anc) value x.2.1 x.1.2 x.2.2 := by
          intro x hx
          obtain ⟨i, hi⟩ := List.getElem?_of_mem hx
          obtain ⟨h5, h6⟩ := List.getElem?_zip_eq_some.1 hi
          obtain ⟨k', r, h7, h8⟩ := h2 i x.1.1 x.1.2 h5
          rw [h6, Option.some.injEq] at h7
          rw [h7]; exact h8
        have hout : ∀ (z : List ((Val × Val) × Val × Val)) , (z.map (·.1)).Pairwise (fun a b => ∀ x y,
              KeyOut env ph ser key a.1 x → KeyOut env ph ser key b.1 y → pyEq x y = false ∧ pyEq y x = false) →
            (∀ x ∈ z, KeyOk env n ph ser (ancOr (.map c key value req) anc) key x.1.1 x.2.1) →
            (z.map (·.2)).Pairwise fun a b => pyEq b.1 a.1 = false := by
          intro z hz hk
          rw [List.pairwise_map] at hz ⊢
          refine hz.imp_of_mem fun {a b} ha hb h => ?_
          exact (h _ _ (keyOk_out (hk a ha)) (keyOk_out (hk b hb))).2
        have hpw := hout _ (by rw [hz1]; exact hov d rfl) fun x hx => (hzok x hx).1
        rw [hz2] at hpw
        have hes : out = es := by rw [h3, foldl_dictSet_new es [] hpw (by simp)]; rfl
        obtain ⟨z', hzp, hz'⟩ := perm_lift hp hz1
        obtain ⟨es', h5, h6, h7⟩ := entries_reorder (env := env) (ph := ph) (ser := ser) (n := n) (key := key) (value := value)
          (anc := ancOr (.map c key value req) anc) hz' hl (fun x hx => hzok x (hzp.mem_iff.2 hx)) (by
            intro x hx g x' A w hg hxx hpr
            have hx1 : x.1 ∈ d := by rw [← hz1]; exact List.mem_map.2 ⟨x, hzp.mem_iff.2 hx, rfl⟩
            exact (ih' g _ _ (.value hci hx1 hg) hxx A).1 w hpr)
        have hperm : es.Perm (z'.map (·.2)) := by rw [← hz2]; exact hzp.map _
        have hpw' : es'.Pairwise fun a b => pyEq b.1 a.1 = false := by
          have hkeys := h7.keys
          have hsym : (z'.map (·.2)).Pairwise fun a b => pyEq b.1 a.1 = false := by
            have hash : ∀ x ∈ es, hashable x.1 = true := by
              intro x hx
              rw [← hz2] at hx
              obtain ⟨y, hy, rfl⟩ := List.mem_map.1 hx
              exact (hzok y hy).2.1
            have h8 : es.Pairwise fun a b => pyEq a.1 b.1 = false ∧ pyEq b.1 a.1 = false := by
              refine hpw.imp_of_mem fun {a b} ha hb h => ⟨?_, h⟩
              cases h9 : pyEq a.1 b.1 with
              | false => rfl
              | true => rw [pyEq_symm (hash a ha) h9] at h; cases h
            exact (hperm.pairwise h8 fun h => ⟨h.2, h.1⟩).imp And.right
          have : ((z'.map (·.2)).map (·.1)).Pairwise fun a b => pyEq b a = false := by rw [List.pairwise_map]; exact hsym
          rw [hkeys, List.pairwise_map] at this
          exact this
        refine ⟨.dict es', (map_ok hpre).2 (.inr ⟨d', es', rfl, h5, h6, es', rfl, ?_, ?_⟩), ?_⟩
        · rw [foldl_dictSet_new es' [] hpw' (by simp)]; rfl
        · intro k hk
          obtain ⟨h8, x, hx, h9⟩ := h4 k hk
          refine ⟨h8, ?_⟩
          rw [hes] at hx
          obtain ⟨y, hy, _⟩ := h7.mem (hperm.mem_iff.1 hx)
          exact ⟨_, hy, h9⟩
        · rw [hes]
          exact .dict _ hperm h7
    | «structure» c defn strict ko =>
      have hpre := hpre c rfl
      obtain ⟨hnd, hkeys⟩ := hov
      cases hs with
      | refl => exact .refl _
      | list hl => exact .mkErr ..
      | tuple hl => exact .mkErr ..
      | dict e hp hl =>
        rename_i d d'
        refine ⟨?_, fun ⟨e, he, h⟩ => by rw [structure_cls hpre hnd h] at he; cases he⟩
        intro w hw
        rcases (struct_ok hpre hnd).1 hw with ⟨h, _⟩ | ⟨d0, h0, h1, slots, h2, h3, rfl⟩
        · cases h
        cases h0
        have hci : containerInput env c (.dict d) = some (.dict d) := by unfold containerInput; rw [hpre]
        obtain ⟨slots', h4, h5, h6⟩ := slots_reorder (env := env) (ph := ph) (ser := ser) (n := n) (defn := defn) (d' := d')
          (anc := ancOr (.structure c defn strict ko) anc) (slots := slots) (by
            intro x hx
            refine slot_reorder (hkeys d rfl) hp hl ?_ (h3 x hx)
            intro g cg y y' hd hin hyy A w hpr
            obtain ⟨p, hd1, hd2, hd3⟩ := hd
            exact (ih' g _ _ (.member hci (lookup_mem hd1) hd2 hd3 (.inl rfl) hin) hyy A).1 w hpr)
        exact ⟨_, (struct_ok hpre hnd).2 (.inr ⟨d', rfl, fun hst => names_reorder hp hl (h1 hst), slots', by rw [h4, h2], h5, rfl⟩),
          .dict _ (.refl _) h6⟩
    | poly c dsc vs strict ko =>
      obtain ⟨hko, hnd, hkeys⟩ := hov
      subst hko
      replace hpre := hpre c rfl
      cases hs with
      | refl => exact .refl _
      | list hl => exact .mkErr ..
      | tuple hl => exact .mkErr ..
      | dict e hp hl =>
        rename_i d d'
        have hci : containerInput env c (.dict d) = some (.dict d) := by unfold containerInput; rw [hpre]
        have hg := given_reorder (hkeys d rfl) hp hl (dsc.name.getD [])
        constructor
        · intro w hw
          rcases (poly_ok hpre hnd).1 hw with ⟨h, _⟩ | ⟨d0, raw, id, defn, h0, h1, h2, h3, h4, h5, h6, h7, slots, h8, h9, rfl⟩
          · cases h
          cases h0
          rcases hg with ⟨g1, _⟩ | ⟨x, x', g1, g2, gx⟩
          · rw [g1] at h1; cases h1
          rw [g1] at h1; cases h1
          obtain ⟨id', hid', hii⟩ := (ih' dsc _ _ (.disc hci g1) gx _).1 _ h3
          have hvf : variantFor vs id' = some defn := by
            rw [← h5]
            unfold variantFor
            congr 2
            funext y
            exact (hii.eqL y.1).symm
          have hmem : ∃ i, (i, defn) ∈ vs := by
            unfold variantFor at h5
            rw [Option.map_eq_some_iff] at h5
            obtain ⟨y, h5, rfl⟩ := h5
            exact ⟨y.1, List.mem_of_find?_eq_some h5⟩
          obtain ⟨i, hmem⟩ := hmem
          obtain ⟨slots', h10, h11, h12⟩ := slots_reorder (env := env) (ph := ph) (ser := ser) (n := n) (defn := defn) (d' := d')
            (anc := ancOr (.poly c dsc vs strict []) anc) (slots := slots) (by
              intro x hx
              refine slot_reorder (hkeys d rfl) hp hl ?_ (h9 x hx)
              intro g cg y y' hd hin hyy A w hpr
              obtain ⟨p, hd1, hd2, hd3⟩ := hd
              exact (ih' g _ _ (.variant hci hmem (lookup_mem hd1) hd2 hd3 (.inl rfl) hin) hyy A).1 w hpr)
          exact ⟨_, (poly_ok hpre hnd).2 (.inr ⟨d', x', id', defn, rfl, g2, fun h => h2 (gx.none_iff.2 h), hid',
            by rw [← hii.hash]; exact h4, hvf, h6, fun hst => names_reorder hp hl (h7 hst), slots', by rw [h10, h8], h11, rfl⟩),
            .dict _ (.refl _) h12⟩
        · rintro ⟨er, he, h⟩
          rw [process_anc] at h ⊢
          have hne : ancOr (.poly c dsc vs strict []) anc ≠ [] := ancOr_ne_nil _ _
          change processPoly env (process env n) c dsc vs strict [] false (.dict d) ph ser _ = _ at h
          show RejectsType (processPoly env (process env n) c dsc vs strict [] false (.dict d') ph ser _)
          rw [processPoly_dict hpre hne] at h ⊢
          rcases hg with ⟨g1, g2⟩ | ⟨x, x', g1, g2, gx⟩
          · rw [g1] at h
            simp only [Option.getD_none, Val.isNone, if_true] at h
            rw [mkErr_cls h] at he; cases he
          · rw [g1] at h
            rw [g2]
            simp only [Option.getD_some] at h ⊢
            rw [gx.isNone] at h
            split at h
            · rw [mkErr_cls h] at he; cases he
            · rename_i hn
              rw [if_neg hn]
              rw [except_bind_eq_error] at h
              rcases h with h | ⟨id, hid, h⟩
              · obtain ⟨e', he', h'⟩ := (ih' dsc _ _ (.disc hci g1) gx _).2 ⟨er, he, h⟩
                exact ⟨e', he', by rw [h']; rfl⟩
              · exfalso
                split at h
                · cases h
                split at h
                · rw [mkErr_cls h] at he; cases he
                · rename_i defn hvf
                  split at h
                  · rw [mkErr_cls h] at he; cases he
                  · have : (defn.map (·.1)).Nodup := by
                      unfold variantFor at hvf
                      rw [Option.map_eq_some_iff] at hvf
                      obtain ⟨y, hy, rfl⟩ := hvf
                      exact hnd y (List.mem_of_find?_eq_some hy)
                    rw [structBody_cls this h] at he; cases he

/-! ### the restrictions do not depend on the order either -/

mutual
theorem SameData.symm' {v w : Val} : SameData v w → SameData w v
  | .refl v => .refl v
  | .list h => .list (SameItems.symm' h)
  | .tuple h => .tuple (SameItems.symm' h)
  | .dict e hp h => by
    have h' := SameEntries.symm' h
    obtain ⟨e', h1, h2⟩ := SameEntries.perm h' hp.symm
    exact .dict e' h1 h2
theorem SameItems.symm' {l l' : List Val} : SameItems l l' → SameItems l' l
  | .nil => .nil
  | .cons h hr => .cons (SameData.symm' h) (SameItems.symm' hr)
theorem SameEntries.symm' {l l' : List (Val × Val)} : SameEntries l l' → SameEntries l' l
  | .nil => .nil
  | .cons h hr => .cons (SameData.symm' h) (SameEntries.symm' hr)
end

theorem SameItems.mem {l l' : List Val} (h : SameItems l l') {x' : Val} (hx : x' ∈ l') : ∃ x ∈ l, SameData x x' := by
  induction l generalizing l' with
  | nil => cases h; cases hx
  | cons a r ih =>
    cases h with
    | cons ha hr =>
      rcases List.mem_cons.1 hx with rfl | hx
      · exact ⟨a, List.mem_cons_self .., ha⟩
      · obtain ⟨x, h1, h2⟩ := ih hr hx
        exact ⟨x, List.mem_cons_of_mem _ h1, h2⟩

theorem SameEntries.mem' {d d' : List (Val × Val)} (h : SameEntries d d') {k v' : Val} (hm : (k, v') ∈ d') :
    ∃ v, (k, v) ∈ d ∧ SameData v v' := by
  obtain ⟨v, h1, h2⟩ := h.symm'.mem hm
  exact ⟨v, h1, h2.symm'⟩

theorem SameData.list_right {v : Val} {l' : List Val} (h : SameData v (.list l')) : ∃ l, v = .list l ∧ SameItems l l' := by
  cases h with
  | refl => exact ⟨l', rfl, .mk rfl fun i x y hx hy => by rw [hx] at hy; cases hy; exact .refl _⟩
  | list h => exact ⟨_, rfl, h⟩

theorem SameData.tuple_right {v : Val} {l' : List Val} (h : SameData v (.tuple l')) : ∃ l, v = .tuple l ∧ SameItems l l' := by
  cases h with
  | refl => exact ⟨l', rfl, .mk rfl fun i x y hx hy => by rw [hx] at hy; cases hy; exact .refl _⟩
  | tuple h => exact ⟨_, rfl, h⟩

theorem SameEntries.refl' (d : List (Val × Val)) : SameEntries d d := by
  induction d with
  | nil => exact .nil
  | cons x r ih => exact .cons (.refl _) ih

theorem SameData.dict_right {v : Val} {d' : List (Val × Val)} (h : SameData v (.dict d')) :
    ∃ d e, v = .dict d ∧ d.Perm e ∧ SameEntries e d' := by
  cases h with
  | refl => exact ⟨d', d', rfl, .refl _, .refl' _⟩
  | dict e hp h => exact ⟨_, e, rfl, hp, h⟩

theorem member_reorder {cg : Common} {d e d' : List (Val × Val)} (hnd : (d.map (·.1)).Nodup) (hp : d.Perm e)
    (hl : SameEntries e d') {name : Str} {o : Option Val} {w' : Val} (ho : o = given d' name ∨ o = none)
    (hm : memberInput cg o ph false = some w') :
    ∃ o w, (o = given d name ∨ o = none) ∧ memberInput cg o ph false = some w ∧ SameData w w' := by
  rcases ho with rfl | rfl
  · rcases given_reorder hnd hp hl name with ⟨h1, h2⟩ | ⟨x, x', h1, h2, hx⟩
    · rw [h2] at hm; exact ⟨none, w', .inr rfl, hm, .refl _⟩
    · rw [h2, memberInput_given, ← hx.isNone] at hm
      refine ⟨some x, x, .inl h1.symm, ?_, ?_⟩
      · rw [memberInput_given]
        split at hm
        · cases hm
        · rename_i hc; rw [if_neg hc]
      · split at hm
        · cases hm
        · cases hm; exact hx
  · exact ⟨none, w', .inr rfl, hm, .refl _⟩

theorem calls_reorder {f g : Field} {v v' w' : Val} (hs : SameData v v') (ho : Orderly env ph ser f v)
    (hc : Calls env ph false f v' g w') : ∃ w, Calls env ph false f v g w ∧ SameData w w' := by
  obtain ⟨hpre, hov⟩ := ho
  have input : ∀ c, f.common? = some c → ∀ x, containerInput env c x = some x := by
    intro c hc x; unfold containerInput; rw [hpre c hc]
  cases hc with
  | item h1 h2 h3 =>
    rw [input _ rfl] at h1; cases h1
    obtain ⟨l, rfl, hl⟩ := hs.list_right
    obtain ⟨x, hx, hxx⟩ := hl.mem h2
    exact ⟨x, .item (input _ rfl _) hx h3, hxx⟩
  | key h1 h2 =>
    rw [input _ rfl] at h1; cases h1
    obtain ⟨d, e, rfl, hp, hl⟩ := hs.dict_right
    obtain ⟨x, hx, hxx⟩ := hl.mem' h2
    exact ⟨w', .key (input _ rfl _) (hp.mem_iff.2 hx), .refl _⟩
  | value h1 h2 h3 =>
    rw [input _ rfl] at h1; cases h1
    obtain ⟨d, e, rfl, hp, hl⟩ := hs.dict_right
    obtain ⟨x, hx, hxx⟩ := hl.mem' h2
    exact ⟨x, .value (input _ rfl _) (hp.mem_iff.2 hx) h3, hxx⟩
  | tuple h1 h2 h3 h4 =>
    rename_i l' _
    rw [input _ rfl] at h1; cases h1
    obtain ⟨i, hi⟩ := List.getElem?_of_mem h3
    obtain ⟨hi1, hi2⟩ := List.getElem?_zip_eq_some.1 hi
    have : ∃ l, (v = .list l ∨ v = .tuple l) ∧ SameItems l l' := by
      rcases h2 with rfl | rfl
      · obtain ⟨l, rfl, hl⟩ := hs.list_right; exact ⟨l, .inl rfl, hl⟩
      · obtain ⟨l, rfl, hl⟩ := hs.tuple_right; exact ⟨l, .inr rfl, hl⟩
    obtain ⟨l, hv, hl⟩ := this
    obtain ⟨x, hx, hxx⟩ := hl.symm'.get hi2
    exact ⟨x, .tuple (input _ rfl _) hv (List.mem_of_getElem? (i := i) (List.getElem?_zip_eq_some.2 ⟨hi1, hx⟩)) h4, hxx.symm'⟩
  | union h1 h2 => exact ⟨v, .union h1 h2, hs⟩
  | member h1 h2 h3 h4 h5 h6 =>
    rw [input _ rfl] at h1; cases h1
    obtain ⟨d, e, rfl, hp, hl⟩ := hs.dict_right
    obtain ⟨o, w, ho, hw, hww⟩ := member_reorder (hov.2 d rfl) hp hl h5 h6
    exact ⟨w, .member (input _ rfl _) h2 h3 h4 ho hw, hww⟩
  | disc h1 h2 =>
    rw [input _ rfl] at h1; cases h1
    obtain ⟨d, e, rfl, hp, hl⟩ := hs.dict_right
    rcases given_reorder (hov.2.2 d rfl) hp hl _ with ⟨h3, h4⟩ | ⟨x, x', h3, h4, hx⟩
    · rw [h4] at h2; cases h2
    · rw [h4] at h2; cases h2
      exact ⟨x, .disc (input _ rfl _) h3, hx⟩
  | variant h1 hi h2 h3 h4 h5 h6 =>
    rw [input _ rfl] at h1; cases h1
    obtain ⟨d, e, rfl, hp, hl⟩ := hs.dict_right
    obtain ⟨o, w, ho, hw, hww⟩ := member_reorder (hov.2.2 d rfl) hp hl h5 h6
    exact ⟨w, .variant (input _ rfl _) hi h2 h3 h4 ho hw, hww⟩

theorem orderly_reorder {f : Field} {v v' : Val} (hs : SameData v v') (ho : Orderly env ph ser f v) :
    Orderly env ph ser f v' := by
  have nodup : (∀ d, v = .dict d → (d.map (·.1)).Nodup) → ∀ d, v' = .dict d → (d.map (·.1)).Nodup := by
    rintro h d' rfl
    obtain ⟨d, e, rfl, hp, hl⟩ := hs.dict_right
    rw [← hl.keys]
    exact (hp.map _).nodup_iff.1 (h d rfl)
  obtain ⟨hpre, hov⟩ := ho
  refine ⟨hpre, ?_⟩
  cases f with
  | leaf c k =>
    cases k with
    | error =>
      intro l hl
      subst hl
      obtain ⟨l, rfl, _⟩ := hs.tuple_right
      exact hov l rfl
    | surrogate a =>
      intro d hd
      subst hd
      obtain ⟨d, _, rfl, _⟩ := hs.dict_right
      exact hov d rfl
    | _ => exact hov
  | map c key value req =>
    intro d' hd
    subst hd
    obtain ⟨d, e, rfl, hp, hl⟩ := hs.dict_right
    have h1 := hp.pairwise (hov d rfl) fun h x y hx hy => (h y x hy hx).symm
    have h2 : (e.map (·.1)).Pairwise fun a b => ∀ x y, KeyOut env ph ser key a x → KeyOut env ph ser key b y →
        pyEq x y = false ∧ pyEq y x = false := by rw [List.pairwise_map]; exact h1
    rw [hl.keys, List.pairwise_map] at h2
    exact h2
  | «structure» c defn strict ko => exact ⟨hov.1, nodup hov.2⟩
  | poly c dsc vs strict ko => exact ⟨hov.1, hov.2.1, nodup hov.2.2⟩
  | _ => trivial

theorem involves_reorder {f : Field} {v v' : Val} (hs : SameData v v')
    (ho : ∀ g w, Involves env ph f v g w → Orderly env ph ser g w) :
    ∀ g w', Involves env ph f v' g w' → Orderly env ph ser g w' := by
  intro g w' hi
  induction hi generalizing v with
  | here => exact orderly_reorder hs (ho _ _ .here)
  | call hc _ ih =>
    obtain ⟨w, h1, h2⟩ := calls_reorder hs (ho _ _ .here) hc
    exact ih h2 fun g' x hi => ho g' x (.call h1 hi)

/-! ### C68 -/

/-- C68. The order of dict entries makes no difference: data that differ only in it are both accepted or both rejected, and
the results of accepted data differ only in it. -/
theorem C68_reorder (env : Env) (n : Nat) (f : Field) (v v' : Val) (ph : Phase) (ser : Bool) (anc : List Str)
    (hs : SameData v v') (ho : ∀ g w, Involves env ph f v g w → Orderly env ph ser g w) :
    (∀ w, process env n f v ph ser anc = .ok w → ∃ w', process env n f v' ph ser anc = .ok w' ∧ SameData w w') ∧
    (∀ w', process env n f v' ph ser anc = .ok w' → ∃ w, process env n f v ph ser anc = .ok w ∧ SameData w w') := by
  refine ⟨(process_follows hs ho).1, fun w' hw => ?_⟩
  obtain ⟨w, h1, h2⟩ := (process_follows hs.symm' (involves_reorder hs ho)).1 w' hw
  exact ⟨w, h1, h2.symm'⟩

/-- C68. Nor does it decide whether the type is rejected, which is what a union looks at. -/
theorem C68_rejected_type (env : Env) (n : Nat) (f : Field) (v v' : Val) (ph : Phase) (ser : Bool) (anc : List Str)
    (hs : SameData v v') (ho : ∀ g w, Involves env ph f v g w → Orderly env ph ser g w) :
    RejectsType (process env n f v ph ser anc) ↔ RejectsType (process env n f v' ph ser anc) :=
  ⟨(process_follows hs ho).2, (process_follows hs.symm' (involves_reorder hs ho)).2⟩

/-! ### a case -/

/-- `Structure({'n': Integer(), 'm': Map(Integer())})` -/
def Ex.counted : Field := .structure {} [(c!"n", Ex.int), (c!"m", .map {} none Ex.int [])] true []

/-- `{'n': 1, 'm': {'a': 1, 'b': 2}}` -/
def Ex.countedValue : Val :=
  .dict [(.str c!"n", .int 1), (.str c!"m", .dict [(.str c!"a", .int 1), (.str c!"b", .int 2)])]

/-- `{'m': {'b': 2, 'a': 1}, 'n': 1}` -/
def Ex.countedOther : Val :=
  .dict [(.str c!"m", .dict [(.str c!"b", .int 2), (.str c!"a", .int 1)]), (.str c!"n", .int 1)]

theorem Ex.counted_same : SameData Ex.countedValue Ex.countedOther := by
  refine .dict _ (.swap ..) (.cons ?_ (.cons (.refl _) .nil))
  exact .dict _ (.swap ..) (.cons (.refl _) (.cons (.refl _) .nil))

theorem Ex.counted_orderly (g : Field) (w : Val) (h : Involves Ex.env .inbound Ex.counted Ex.countedValue g w) :
    Orderly Ex.env .inbound false g w := by
  have hint : ∀ w, Orderly Ex.env .inbound false Ex.int w := fun w => ⟨fun c h => by cases h; rfl, trivial⟩
  cases h with
  | here => exact ⟨fun c h => by cases h; rfl, by decide, fun d hd => by cases hd; simp⟩
  | call hc hi =>
    cases hc with
    | member h1 h2 h3 h4 h5 h6 =>
      cases h1
      simp only [List.mem_cons, Prod.mk.injEq, List.not_mem_nil, or_false] at h2
      rcases h2 with ⟨rfl, rfl⟩ | ⟨rfl, rfl⟩
      · cases h3
        cases hi with
        | call hc _ => cases hc
        | here => exact hint _
      · cases h3
        rename_i x _ _
        have hw : x = .dict [(.str c!"a", .int 1), (.str c!"b", .int 2)] := by
          rcases h5 with rfl | rfl
          · exact (Option.some.inj h6).symm
          · cases h4; cases h6
        subst hw
        cases hi with
        | here =>
          refine ⟨fun c h => by cases h; rfl, fun d hd => ?_⟩
          cases hd
          refine .cons ?_ (.cons (by simp) .nil)
          intro b hb x y hx hy
          cases List.mem_singleton.1 hb
          cases hx; cases hy
          decide
        | call hc hi =>
          cases hc with
          | value h1 h2 h3 =>
            cases h3
            cases hi with
            | call hc _ => cases hc
            | here => exact hint _

example : ∃ w', process Ex.env 3 Ex.counted Ex.countedOther .inbound false [] = .ok w' ∧ SameData Ex.countedValue w' :=
  (C68_reorder _ 3 _ _ _ .inbound false [] Ex.counted_same Ex.counted_orderly).1 _ rfl

/-- The members of a structure come in its own order, the entries of a map in the given one. -/
example : process Ex.env 3 Ex.counted Ex.countedOther .inbound false [] =
    .ok (.dict [(.str c!"n", .int 1), (.str c!"m", .dict [(.str c!"b", .int 2), (.str c!"a", .int 1)])]) := rfl

/-! ### the restriction on keys is needed -/

/-- C68. When two keys of a map become the same, the last one wins, so the order matters. -/
theorem C68_collapsing_keys :
    let f : Field := .map {} (some Ex.text) Ex.int []
    let v : Val := .dict [(.str c!" a", .int 1), (.str c!"a", .int 2)]
    let v' : Val := .dict [(.str c!"a", .int 2), (.str c!" a", .int 1)]
    SameData v v' ∧ process Ex.env 2 f v .inbound false [] = .ok (.dict [(.str c!"a", .int 2)]) ∧
      process Ex.env 2 f v' .inbound false [] = .ok (.dict [(.str c!"a", .int 1)]) :=
  ⟨.dict _ (.swap ..) (.cons (.refl _) (.cons (.refl _) .nil)), rfl, rfl⟩

end Scheme
