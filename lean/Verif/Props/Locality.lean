import Verif.Spec.Moved
import Verif.Lemmas.Leaf
import Verif.Lemmas.Accept
import Verif.Lemmas.Fuel
import Verif.Spec.Examples

/-! Where a field sits does not change what it does. -/

namespace Scheme

section

variable {p q : List Str}

theorem MovedX.same {α : Type} (x : Except Exn α) : MovedX p q Eq x x := by
  cases x with
  | ok a => exact .ok rfl
  | error e => exact .error (.same e)

theorem MovedX.bind {α β : Type} {R : α → α → Prop} {S : β → β → Prop} {x y : Except Exn α} {f g : α → Except Exn β}
    (h : MovedX p q R x y) (hf : ∀ a b, R a b → MovedX p q S (f a) (g b)) : MovedX p q S (x >>= f) (y >>= g) := by
  cases h with
  | ok h => exact hf _ _ h
  | error h => exact .error h

theorem mkErr_moved (f : Field) (cls : ErrCls) (i : List Str) (v : Val) (tok : Str) (ps : List (Str × Str)) :
    MovedE p q (mkErr f cls (p ++ i) v tok ps) (mkErr f cls (q ++ i) v tok ps) := by
  unfold mkErr
  split
  · exact .same _
  · split
    · exact .same _
    · exact .moved (.same _)

theorem isNull_moved (f : Field) (v : Val) (i : List Str) : MovedX p q Eq (isNull f v (p ++ i)) (isNull f v (q ++ i)) := by
  unfold isNull
  split
  · exact .same _
  · split
    · split
      · exact .error (mkErr_moved ..)
      · exact .same _
    · exact .same _

theorem unserializeLeaf_moved (env : Env) (f : Field) (k : Leaf) (v : Val) (i : List Str) :
    Moved p q (unserializeLeaf env f k v (p ++ i)) (unserializeLeaf env f k v (q ++ i)) := by
  unfold unserializeLeaf
  dsimp only
  repeat' split
  all_goals first | exact .same _ | exact .error (mkErr_moved ..)

theorem preprocess_moved (env : Env) (f : Field) (c : Common) (k : Leaf) (v : Val) (i : List Str) :
    Moved p q (preprocess env f c k v (p ++ i)) (preprocess env f c k v (q ++ i)) := by
  unfold preprocess
  dsimp only
  repeat' split
  all_goals first | exact .same _ | exact .error (mkErr_moved ..)

theorem validateText_moved (f : Field) (mn mx : Option Nat) (pat : Str → Bool) (s : Str) (i : List Str) :
    Moved p q (validateText f mn mx pat s (p ++ i)) (validateText f mn mx pat s (q ++ i)) := by
  unfold validateText
  dsimp only
  repeat' split
  all_goals first | exact .same _ | exact .error (mkErr_moved ..)

theorem validateLeaf_moved (env : Env) (f : Field) (k : Leaf) (v : Val) (i : List Str) :
    Moved p q (validateLeaf env f k v (p ++ i)) (validateLeaf env f k v (q ++ i)) := by
  unfold validateLeaf
  dsimp only
  repeat' split
  all_goals first | exact .same _ | exact .error (mkErr_moved ..) | exact validateText_moved ..

theorem ancOr_moved (hp : p ≠ []) (f : Field) (i : List Str) : ancOr f (p ++ i) = p ++ i := by
  unfold ancOr
  cases p with
  | nil => exact absurd rfl hp
  | cons a r => rfl

variable (hp : p ≠ []) (hq : q ≠ [])
include hp hq

theorem leaf_moved (env : Env) (c : Common) (k : Leaf) (v : Val) (ph : Phase) (ser : Bool) (i : List Str) :
    Moved p q (processLeaf env c k v ph ser (p ++ i)) (processLeaf env c k v ph ser (q ++ i)) := by
  rw [processLeaf_eq, processLeaf_eq, ancOr_moved hp, ancOr_moved hq]
  refine (isNull_moved ..).bind ?_
  rintro b _ rfl
  split
  · exact .same _
  · refine MovedX.bind (R := Eq) ?_ ?_
    · unfold decodeStep
      split
      · exact unserializeLeaf_moved ..
      · exact .same _
    rintro v1 _ rfl
    refine (preprocess_moved ..).bind ?_
    rintro v2 _ rfl
    refine MovedX.bind (R := Eq) ?_ ?_
    · unfold checkConst
      split
      · exact .error (mkErr_moved ..)
      · exact .same _
    rintro v2 _ rfl
    refine (validateLeaf_moved ..).bind ?_
    rintro v3 _ rfl
    unfold encodeStep
    split
    · unfold serOut
      split
      · exact .error (mkErr_moved ..)
      · exact .same _
    · exact .same _

omit hp hq

/-- What the calls of children are assumed to satisfy. -/
def Moves (p q : List Str) (ph : Phase) (ser : Bool) (rec : Proc) : Prop :=
  ∀ f v i, Moved p q (rec f v ph ser (p ++ i)) (rec f v ph ser (q ++ i))

variable {env : Env} {ph : Phase} {ser : Bool} {rec : Proc}

theorem Moves.step (hr : Moves p q ph ser rec) (f : Field) (v : Val) (i : List Str) (s : Str) :
    Moved p q (rec f v ph ser (p ++ i ++ [s])) (rec f v ph ser (q ++ i ++ [s])) := by
  rw [List.append_assoc, List.append_assoc]
  exact hr ..

theorem Moves.call (hr : Moves p q ph ser rec) (f : Field) (v : Val) (i : List Str) (s : Str) :
    Moved p q (callChild env rec f v ph ser (p ++ i ++ [s])) (callChild env rec f v ph ser (q ++ i ++ [s])) := by
  unfold callChild
  split
  · exact .same _
  · exact hr.step ..

/-- Collected outcomes: the same flag, and the same value, moved if it is an error. -/
def MovedC (p q : List Str) (x y : Val × Bool) : Prop := MovedV p q x.1 y.1 ∧ x.2 = y.2 ∧ (x.2 = true → x.1 = y.1)

theorem collect_moved {x y : Except Exn Val} (h : Moved p q x y) : MovedX p q (MovedC p q) (collect x) (collect y) := by
  cases h with
  | ok h => subst h; exact .ok ⟨.same _, rfl, fun _ => rfl⟩
  | error h =>
    cases h with
    | same => rename_i e; cases e <;> first | exact .ok ⟨.same _, rfl, fun _ => rfl⟩ | exact .error (.same _)
    | moved h => exact .ok ⟨.exc h, rfl, fun h => (by cases h)⟩

/-- Collected lists. -/
def MovedCL (p q : List Str) (x y : List Val × Bool) : Prop := MovedL p q x.1 y.1 ∧ x.2 = y.2 ∧ (x.2 = true → x.1 = y.1)

theorem seqLoop_moved (hr : Moves p q ph ser rec) (item : Field) (i : List Str) (l : List Val) (j : Nat) :
    MovedX p q (MovedCL p q) (seqLoop env rec item ph ser (p ++ i) j l) (seqLoop env rec item ph ser (q ++ i) j l) := by
  induction l generalizing j with
  | nil => exact .ok ⟨.nil, rfl, fun _ => rfl⟩
  | cons v r ih =>
    unfold seqLoop
    refine (collect_moved (hr.call ..)).bind ?_
    rintro x x' ⟨h1, h2, h3⟩
    refine (ih _).bind ?_
    rintro y y' ⟨h4, h5, h6⟩
    refine .ok ⟨.cons h1 h4, by rw [h2, h5], fun h => ?_⟩
    simp only [Bool.and_eq_true] at h
    rw [h3 h.1, h6 h.2]

theorem tupLoop_moved (hr : Moves p q ph ser rec) (i : List Str) (fs : List Field) (l : List Val) (j : Nat) :
    MovedX p q (MovedCL p q) (tupLoop env rec ph ser (p ++ i) j fs l) (tupLoop env rec ph ser (q ++ i) j fs l) := by
  induction fs generalizing j l with
  | nil => cases l <;> exact .ok ⟨.nil, rfl, fun _ => rfl⟩
  | cons f fs ih =>
    cases l with
    | nil => exact .ok ⟨.nil, rfl, fun _ => rfl⟩
    | cons v r =>
      unfold tupLoop
      refine (collect_moved (hr.call ..)).bind ?_
      rintro x x' ⟨h1, h2, h3⟩
      refine (ih _ _).bind ?_
      rintro y y' ⟨h4, h5, h6⟩
      refine .ok ⟨.cons h1 h4, by rw [h2, h5], fun h => ?_⟩
      simp only [Bool.and_eq_true] at h
      rw [h3 h.1, h6 h.2]

theorem MovedD.set {d d' : List (Val × Val)} (h : MovedD p q d d') (k : Val) {v w : Val} (hv : MovedV p q v w) :
    MovedD p q (dictSet d k v) (dictSet d' k w) := by
  induction d generalizing d' with
  | nil => cases h; exact .cons hv .nil
  | cons e r ih =>
    cases h with
    | cons h1 h2 =>
      simp only [dictSet]
      split
      · exact .cons hv h2
      · exact .cons h1 (ih h2)

theorem MovedD.get {d d' : List (Val × Val)} (h : MovedD p q d d') (k : Val) :
    (dictGet d k).isSome = (dictGet d' k).isSome := by
  induction d generalizing d' with
  | nil => cases h; rfl
  | cons e r ih =>
    cases h with
    | cons h1 h2 =>
      simp only [dictGet]
      split
      · rfl
      · exact ih h2

/-- Collected dicts. -/
def MovedCD (p q : List Str) (x y : List (Val × Val) × Bool) : Prop :=
  MovedD p q x.1 y.1 ∧ x.2 = y.2 ∧ (x.2 = true → x.1 = y.1)

theorem mapKey_moved (hr : Moves p q ph ser rec) (f : Field) (whole : Val) (key : Option Field) (i : List Str) (k : Val) :
    Moved p q (mapKey env rec f whole key ph ser (p ++ i) k) (mapKey env rec f whole key ph ser (q ++ i) k) := by
  unfold mapKey
  cases key with
  | some kf =>
    refine MovedX.bind (R := Eq) (.same _) ?_
    rintro s _ rfl
    have h := hr.step kf k i s
    revert h
    generalize rec kf k ph ser (p ++ i ++ [s]) = x
    generalize rec kf k ph ser (q ++ i ++ [s]) = y
    intro h
    cases h with
    | ok h => subst h; exact .same _
    | error h =>
      cases h with
      | same => rename_i e; cases e <;> first | exact .error (mkErr_moved ..) | exact .same _
      | moved h => exact .error (mkErr_moved ..)
  | none =>
    dsimp only
    split
    · exact .same _
    · exact .error (mkErr_moved ..)

theorem mapLoop_moved (hr : Moves p q ph ser rec) (f : Field) (whole : Val) (key : Option Field) (value : Field)
    (i : List Str) (l acc acc' : List (Val × Val)) (b : Bool) (ha : MovedCD p q (acc, b) (acc', b)) :
    MovedX p q (MovedCD p q) (mapLoop env rec f whole key value ph ser (p ++ i) l acc b)
      (mapLoop env rec f whole key value ph ser (q ++ i) l acc' b) := by
  induction l generalizing acc acc' b with
  | nil => exact .ok ha
  | cons e r ih =>
    obtain ⟨k, v⟩ := e
    unfold mapLoop
    refine (mapKey_moved hr ..).bind ?_
    rintro k' _ rfl
    refine MovedX.bind (R := Eq) (.same _) ?_
    rintro s _ rfl
    refine (collect_moved (hr.call ..)).bind ?_
    rintro x x' ⟨h1, h2, h3⟩
    split
    · rw [← h2]
      refine ih _ _ _ ⟨ha.1.set k' h1, rfl, fun h => ?_⟩
      simp only [Bool.and_eq_true] at h
      have := ha.2.2 h.1
      simp only at this ⊢
      rw [this, h3 h.2]
    · exact .error (.same _)

theorem mapRequired_moved (f : Field) (i : List Str) (l : List Val) (acc acc' : List (Val × Val)) (b : Bool)
    (ha : MovedCD p q (acc, b) (acc', b)) :
    MovedX p q (MovedCD p q) (mapRequired env f (p ++ i) l acc b) (mapRequired env f (q ++ i) l acc' b) := by
  induction l generalizing acc acc' b with
  | nil => exact .ok ha
  | cons k r ih =>
    unfold mapRequired
    split
    · have hg := ha.1.get k
      cases h : dictGet acc k with
      | some x =>
        cases h' : dictGet acc' k with
        | none => simp [h, h'] at hg
        | some y => exact ih _ _ _ ha
      | none =>
        cases h' : dictGet acc' k with
        | some y => simp [h, h'] at hg
        | none =>
          dsimp only
          have hm := mkErr_moved (p := p) (q := q) f .validation i .none c!"required" [(c!"name", keyText env k)]
          revert hm
          generalize mkErr f .validation (p ++ i) .none c!"required" [(c!"name", keyText env k)] = x
          generalize mkErr f .validation (q ++ i) .none c!"required" [(c!"name", keyText env k)] = y
          intro hm
          cases hm with
          | same =>
            cases x <;> first | exact .same _ | skip
            · exact ih _ _ _ ⟨ha.1.set k (.same _), rfl, fun h => (by cases h)⟩
            all_goals exact .error (.same _)
          | moved hm => exact ih _ _ _ ⟨ha.1.set k (.exc hm), rfl, fun h => (by cases h)⟩
    · exact .error (.same _)

/-- What a union tries: the same member decides, and decides the same. -/
def MovedO (p q : List Str) : Option (Except Exn Val) → Option (Except Exn Val) → Prop
  | none, none => True
  | some x, some y => Moved p q x y
  | _, _ => False

theorem unionLoop_moved (hr : Moves p q ph ser rec) (v : Val) (i : List Str) (fs : List Field) :
    MovedO p q (unionLoop env rec v ph ser (p ++ i) fs) (unionLoop env rec v ph ser (q ++ i) fs) := by
  induction fs with
  | nil => trivial
  | cons f fs ih =>
    unfold unionLoop
    have h : Moved p q (callChild env rec f v ph ser (p ++ i)) (callChild env rec f v ph ser (q ++ i)) := by
      unfold callChild
      split
      · exact .same _
      · exact hr ..
    revert h
    generalize callChild env rec f v ph ser (p ++ i) = x
    generalize callChild env rec f v ph ser (q ++ i) = y
    intro h
    cases h with
    | ok h => subst h; exact MovedX.same _
    | error h =>
      cases h with
      | same =>
        rename_i e
        cases e <;> first | exact MovedX.same _ | skip
        dsimp only
        split
        · exact ih
        · exact MovedX.same _
      | moved h =>
        dsimp only
        split
        · exact ih
        · exact MovedX.error (.moved h)

/-- The state of the key loop of a structure. -/
def MovedS (p q : List Str) (x y : SState) : Prop :=
  x.names = y.names ∧ MovedD p q x.out y.out ∧ x.valid = y.valid ∧ (x.valid = true → x.out = y.out)

theorem structField_moved (hr : Moves p q ph ser rec) (i : List Str) (name : Str) (field : Field) (fv : Val)
    {st st' : SState} (hs : MovedS p q st st') :
    MovedX p q (MovedS p q) (structField env rec ph ser (p ++ i) name field fv st)
      (structField env rec ph ser (q ++ i) name field fv st') := by
  unfold structField
  split
  · exact .error (.same _)
  · split
    · exact .error (.same _)
    · split
      · exact .ok hs
      · refine (collect_moved (hr.step ..)).bind ?_
        rintro x x' ⟨h1, h2, h3⟩
        obtain ⟨s1, s2, s3, s4⟩ := hs
        refine .ok ⟨s1, s2.set _ h1, by simp only [s3, h2], fun h => ?_⟩
        simp only [Bool.and_eq_true] at h ⊢
        rw [s4 h.1, h3 h.2]

theorem structStep_moved (hr : Moves p q ph ser rec) (f : Field) (value : List (Val × Val)) (defn : List (Str × Field))
    (part : Bool) (i : List Str) (name : Str) {st st' : SState} (hs : MovedS p q st st') :
    MovedX p q (MovedS p q) (structStep env rec f value defn ph ser part (p ++ i) name st)
      (structStep env rec f value defn ph ser part (q ++ i) name st') := by
  unfold structStep
  split
  · exact .error (.same _)
  · rw [← hs.1]
    split
    · exact structField_moved hr _ _ _ _ ⟨rfl, hs.2⟩
    · split
      · exact .ok hs
      · split
        · exact .error (.same _)
        · split
          · exact structField_moved hr _ _ _ _ hs
          · split
            · have hm := mkErr_moved (p := p) (q := q) f .validation i .none c!"required" [(c!"name", name)]
              revert hm
              generalize mkErr f .validation (p ++ i) .none c!"required" [(c!"name", name)] = x
              generalize mkErr f .validation (q ++ i) .none c!"required" [(c!"name", name)] = y
              intro hm
              cases hm with
              | same =>
                cases x <;> first
                  | exact .ok ⟨rfl, hs.2.1.set _ (.same _), rfl, fun h => (by cases h)⟩
                  | exact .error (.same _)
              | moved hm => exact .ok ⟨rfl, hs.2.1.set _ (.exc hm), rfl, fun h => (by cases h)⟩
            · exact .ok hs

theorem structLoop_moved (hr : Moves p q ph ser rec) (f : Field) (value : List (Val × Val)) (defn : List (Str × Field))
    (part : Bool) (i : List Str) (l : List Str) {st st' : SState} (hs : MovedS p q st st') :
    MovedX p q (MovedS p q) (structLoop env rec f value defn ph ser part (p ++ i) l st)
      (structLoop env rec f value defn ph ser part (q ++ i) l st') := by
  induction l generalizing st st' with
  | nil => exact .ok hs
  | cons n r ih => exact (structStep_moved hr _ _ _ _ _ _ hs).bind fun a b h => ih h

theorem structUnknown_moved (f : Field) (i : List Str) (l : List Val) {st st' : SState} (hs : MovedS p q st st') :
    MovedX p q (MovedS p q) (structUnknown env f (p ++ i) l st) (structUnknown env f (q ++ i) l st') := by
  induction l generalizing st st' with
  | nil => exact .ok hs
  | cons k r ih =>
    unfold structUnknown
    have hm := mkErr_moved (p := p) (q := q) f .validation i .none c!"unknown" [(c!"name", keyText env k)]
    revert hm
    generalize mkErr f .validation (p ++ i) .none c!"unknown" [(c!"name", keyText env k)] = x
    generalize mkErr f .validation (q ++ i) .none c!"unknown" [(c!"name", keyText env k)] = y
    intro hm
    cases hm with
    | same =>
      cases x <;> first
        | exact ih ⟨hs.1, hs.2.1.set _ (.same _), rfl, fun h => (by cases h)⟩
        | exact .error (.same _)
    | moved hm => exact ih ⟨hs.1, hs.2.1.set _ (.exc hm), rfl, fun h => (by cases h)⟩

theorem structBody_moved (hr : Moves p q ph ser rec) (f : Field) (strict : Bool) (order : List Str)
    (defn : List (Str × Field)) (value : List (Val × Val)) (part : Bool) (i : List Str) :
    Moved p q (structBody env rec f strict order defn value ph ser part (p ++ i))
      (structBody env rec f strict order defn value ph ser part (q ++ i)) := by
  unfold structBody
  refine (structLoop_moved hr f value defn part i order ⟨rfl, .nil, rfl, fun _ => rfl⟩).bind ?_
  intro st st' hs
  have last : ∀ st st', MovedS p q st st' → Moved p q
      (if st.valid = true then pure (Val.dict st.out)
        else throw (.structural ⟨.validation, p ++ i, [], .dict st.out, .dict value⟩))
      (if st'.valid = true then pure (Val.dict st'.out)
        else throw (.structural ⟨.validation, q ++ i, [], .dict st'.out, .dict value⟩)) := by
    intro st st' hs
    rw [← hs.2.2.1]
    split
    · rename_i h
      exact .ok (by rw [hs.2.2.2 h])
    · have := MovedE.moved (p := p) (q := q) (cls := .validation) (i := i) (errs := []) (v := .dict value) (.dict hs.2.1)
      exact .error this
  dsimp only
  split
  · rw [hs.1]
    exact (structUnknown_moved f i _ hs).bind last
  · exact last _ _ hs

theorem structPre_moved (f : Field) (c : Common) (v : Val) (i : List Str) :
    Moved p q (structPre env f c v (p ++ i)) (structPre env f c v (q ++ i)) := by
  unfold structPre
  repeat' split
  all_goals first | exact .same _ | exact .error (mkErr_moved ..)

include hp hq

theorem sequence_moved (hr : Moves p q ph ser rec) (c : Common) (item : Field) (mn mx : Option Nat) (u : Bool) (v : Val)
    (i : List Str) : Moved p q (processSequence env rec c item mn mx u v ph ser (p ++ i))
      (processSequence env rec c item mn mx u v ph ser (q ++ i)) := by
  unfold processSequence
  dsimp only
  rw [ancOr_moved hp, ancOr_moved hq]
  refine (isNull_moved ..).bind ?_
  rintro b _ rfl
  split
  · exact .same _
  · split
    · refine MovedX.bind (R := Eq) (.same _) ?_
      rintro w _ rfl
      split
      · split
        · exact .error (mkErr_moved ..)
        · split
          · exact .error (mkErr_moved ..)
          · refine (seqLoop_moved hr ..).bind ?_
            rintro x y ⟨h1, h2, h3⟩
            rw [← h2]
            cases hb : x.2 with
            | false =>
              simp only [Bool.not_false, if_true]
              rename_i l _ _
              have := MovedE.moved (p := p) (q := q) (cls := .validation) (i := i) (errs := []) (v := .list l) (.list h1)
              exact .error this
            | true =>
              rw [← h3 hb]
              simp only [Bool.not_true, Bool.false_eq_true, if_false]
              repeat' split
              all_goals first | exact .same _ | exact .error (mkErr_moved ..)
      · exact .error (.same _)
    · exact .error (mkErr_moved ..)

theorem tuple_moved (hr : Moves p q ph ser rec) (c : Common) (fs : List Field) (v : Val)
    (i : List Str) : Moved p q (processTuple env rec c fs v ph ser (p ++ i)) (processTuple env rec c fs v ph ser (q ++ i)) := by
  unfold processTuple
  dsimp only
  rw [ancOr_moved hp, ancOr_moved hq]
  refine (isNull_moved ..).bind ?_
  rintro b _ rfl
  have body : ∀ (w : Val) (l : List Val), Moved p q
      (do
        if l.length ≠ fs.length then
          throw (mkErr (.tuple c fs) .validation (p ++ i) w c!"length" [(c!"length", natStr fs.length)])
        let r ← tupLoop env rec ph ser (p ++ i) 0 fs l
        if r.2 then return .tuple r.1
        else throw (.structural ⟨.validation, p ++ i, [], .list r.1, w⟩))
      (do
        if l.length ≠ fs.length then
          throw (mkErr (.tuple c fs) .validation (q ++ i) w c!"length" [(c!"length", natStr fs.length)])
        let r ← tupLoop env rec ph ser (q ++ i) 0 fs l
        if r.2 then return .tuple r.1
        else throw (.structural ⟨.validation, q ++ i, [], .list r.1, w⟩)) := by
    intro w l
    split
    · exact .error (mkErr_moved ..)
    · refine (tupLoop_moved hr ..).bind ?_
      rintro x y ⟨h1, h2, h3⟩
      rw [← h2]
      split
      · rename_i h
        rw [← h3 h]
        exact .same _
      · have := MovedE.moved (p := p) (q := q) (cls := .validation) (i := i) (errs := []) (v := w) (.list h1)
        exact .error this
  split
  · exact .same _
  · split
    · refine MovedX.bind (R := Eq) (.same _) ?_
      rintro w _ rfl
      split
      · exact body _ _
      · exact body _ _
      · exact .error (.same _)
    · refine MovedX.bind (R := Eq) (.same _) ?_
      rintro w _ rfl
      split
      · exact body _ _
      · exact body _ _
      · exact .error (.same _)
    · exact .error (mkErr_moved ..)

theorem map_moved (hr : Moves p q ph ser rec) (c : Common) (key : Option Field) (value : Field) (req : List Val) (v : Val)
    (i : List Str) : Moved p q (processMap env rec c key value req v ph ser (p ++ i))
      (processMap env rec c key value req v ph ser (q ++ i)) := by
  unfold processMap
  dsimp only
  rw [ancOr_moved hp, ancOr_moved hq]
  refine (isNull_moved ..).bind ?_
  rintro b _ rfl
  split
  · exact .same _
  · split
    · refine MovedX.bind (R := Eq) (.same _) ?_
      rintro w _ rfl
      split
      · rename_i d
        refine (mapLoop_moved hr _ _ _ _ _ _ _ _ _ ⟨.nil, rfl, fun _ => rfl⟩).bind ?_
        rintro ⟨a, b⟩ ⟨a', b'⟩ h
        obtain ⟨h1, rfl, h3⟩ := id h
        refine (mapRequired_moved _ _ _ _ _ _ h).bind ?_
        rintro x y ⟨h1, h2, h3⟩
        rw [← h2]
        split
        · rename_i h
          rw [← h3 h]
          exact .same _
        · have := MovedE.moved (p := p) (q := q) (cls := .validation) (i := i) (errs := []) (v := .dict d) (.dict h1)
          exact .error this
      · exact .error (.same _)
    · exact .error (mkErr_moved ..)

theorem union_moved (hr : Moves p q ph ser rec) (c : Common) (fs : List Field) (v : Val)
    (i : List Str) : Moved p q (processUnion env rec c fs v ph ser (p ++ i)) (processUnion env rec c fs v ph ser (q ++ i)) := by
  unfold processUnion
  dsimp only
  rw [ancOr_moved hp, ancOr_moved hq]
  refine (isNull_moved ..).bind ?_
  rintro b _ rfl
  split
  · exact .same _
  · have h := unionLoop_moved (env := env) hr v i fs
    revert h
    generalize unionLoop env rec v ph ser (p ++ i) fs = x
    generalize unionLoop env rec v ph ser (q ++ i) fs = y
    intro h
    cases x <;> cases y <;> first | exact h.elim | exact h | exact .error (mkErr_moved ..)

theorem structure_moved (hr : Moves p q ph ser rec) (c : Common) (defn : List (Str × Field)) (strict : Bool)
    (ko : List Str) (part : Bool) (v : Val) (i : List Str) :
    Moved p q (processStructure env rec c defn strict ko part v ph ser (p ++ i))
      (processStructure env rec c defn strict ko part v ph ser (q ++ i)) := by
  unfold processStructure
  dsimp only
  rw [ancOr_moved hp, ancOr_moved hq]
  refine (isNull_moved ..).bind ?_
  rintro b _ rfl
  split
  · exact .same _
  · split
    · refine (structPre_moved ..).bind ?_
      rintro w _ rfl
      split
      · exact structBody_moved hr ..
      · exact .error (.same _)
    · exact .error (mkErr_moved ..)

theorem poly_moved (hr : Moves p q ph ser rec) (c : Common) (disc : Field) (vs : List (Val × List (Str × Field)))
    (strict : Bool) (ko : List Str) (part : Bool) (v : Val) (i : List Str) :
    Moved p q (processPoly env rec c disc vs strict ko part v ph ser (p ++ i))
      (processPoly env rec c disc vs strict ko part v ph ser (q ++ i)) := by
  unfold processPoly
  dsimp only
  rw [ancOr_moved hp, ancOr_moved hq]
  refine (isNull_moved ..).bind ?_
  rintro b _ rfl
  split
  · exact .same _
  · split
    · refine (structPre_moved ..).bind ?_
      rintro w _ rfl
      split
      · split
        · exact .error (mkErr_moved ..)
        · refine (hr.step ..).bind ?_
          rintro id _ rfl
          split
          · exact .error (.same _)
          · split
            · exact .error (mkErr_moved ..)
            · split
              · exact .error (mkErr_moved ..)
              · split
                · exact .error (.same _)
                · exact structBody_moved hr ..
      · exact .error (.same _)
    · exact .error (mkErr_moved ..)

end

/-- C71. Where a field sits does not change what it does.  Processing at two places gives the same result, or the same
exception in which only the locations differ, all of them below the place. -/
theorem C71_moved (env : Env) (n : Nat) (f : Field) (v : Val) (ph : Phase) (ser : Bool) (p q i : List Str) (hp : p ≠ [])
    (hq : q ≠ []) : Moved p q (process env n f v ph ser (p ++ i)) (process env n f v ph ser (q ++ i)) := by
  induction n generalizing f v i with
  | zero => exact .same _
  | succ n ih =>
    have hr : Moves p q ph ser (process env n) := ih
    cases f with
    | leaf c k => exact leaf_moved hp hq ..
    | sequence => exact sequence_moved hp hq hr ..
    | map => exact map_moved hp hq hr ..
    | tuple => exact tuple_moved hp hq hr ..
    | union => exact union_moved hp hq hr ..
    | «structure» => exact structure_moved hp hq hr ..
    | poly => exact poly_moved hp hq hr ..
    | undef => exact .same _

/-- The same for `process(..., partial=True)`. -/
theorem C71_subset_moved (env : Env) (n : Nat) (f : Field) (v : Val) (ph : Phase) (ser : Bool) (p q i : List Str)
    (hp : p ≠ []) (hq : q ≠ []) :
    Moved p q (processPartial env n f v ph ser (p ++ i)) (processPartial env n f v ph ser (q ++ i)) := by
  have hr : Moves p q ph ser (process env n) := fun f v i => C71_moved env n f v ph ser p q i hp hq
  unfold processPartial
  split
  · exact structure_moved hp hq hr ..
  · exact poly_moved hp hq hr ..
  · exact .same _

/-- C71. What a field does as part of a schema is what it does alone; alone, it is located at its own name. -/
theorem C71_alone (env : Env) (n : Nat) (f : Field) (v : Val) (ph : Phase) (ser : Bool) (p : List Str) (hp : p ≠ []) :
    Moved [guaranteedName f] p (process env n f v ph ser []) (process env n f v ph ser p) := by
  have h := C71_moved env n f v ph ser [guaranteedName f] p [] (by simp) hp
  rw [List.append_nil, List.append_nil] at h
  rw [process_anc env n f v ph ser []]
  exact h

/-- C71. Whether a value is accepted and what it becomes does not depend on the place. -/
theorem C71_accepts (env : Env) (n : Nat) (f : Field) (v w : Val) (ph : Phase) (ser : Bool) (anc anc' : List Str) :
    process env n f v ph ser anc = .ok w ↔ process env n f v ph ser anc' = .ok w := by
  have key : ∀ a b, process env n f v ph ser a = .ok w → process env n f v ph ser b = .ok w := by
    intro a b h
    rw [process_anc] at h ⊢
    have := C71_moved env n f v ph ser (ancOr f a) (ancOr f b) [] (ancOr_ne_nil _ _) (ancOr_ne_nil _ _)
    rw [List.append_nil, List.append_nil, h] at this
    generalize process env n f v ph ser (ancOr f b) = y at this
    cases this with
    | ok h => rw [h]
  exact ⟨key _ _, key _ _⟩

/-- C71. So does what kind of exception it is rejected with: the class that unions look at is the same. -/
theorem C71_rejects (env : Env) (n : Nat) (f : Field) (v : Val) (ph : Phase) (ser : Bool) (anc anc' : List Str) (e : SErr)
    (h : process env n f v ph ser anc = .error (.structural e)) :
    ∃ e', process env n f v ph ser anc' = .error (.structural e') ∧ e'.cls = e.cls ∧ e'.errors = e.errors ∧
      e'.value = e.value := by
  rw [process_anc] at h ⊢
  have := C71_moved env n f v ph ser (ancOr f anc) (ancOr f anc') [] (ancOr_ne_nil _ _) (ancOr_ne_nil _ _)
  rw [List.append_nil, List.append_nil, h] at this
  generalize process env n f v ph ser (ancOr f anc') = y at this
  cases this with
  | error h =>
    cases h with
    | same => exact ⟨_, rfl, rfl, rfl, rfl⟩
    | moved => exact ⟨_, rfl, rfl, rfl, rfl⟩

/-- A list of two numbers with one error in it, at two places. -/
example :
    let f : Field := .sequence { name := some c!"s" } (.leaf {} (.integer none (some 5))) none none false
    let e (p : List Str) : Exn := .structural ⟨.validation, p, [], .list [.int 3,
      .exc .validation (p ++ [c!"[1]"]) [errItem c!"maximum" c!"maximum value" c!"unknown-field must be less then or equal to 5"]
        .none (.int 7)], .list [.int 3, .int 7]⟩
    process Ex.env 2 f (.list [.int 3, .int 7]) .inbound false [] = .error (e [c!"s"]) ∧
    process Ex.env 2 f (.list [.int 3, .int 7]) .inbound false [c!"a", c!".b"] = .error (e [c!"a", c!".b"]) := ⟨rfl, rfl⟩

end Scheme
