import Verif.Lemmas.Members
import Verif.Spec.Schema

/-! Fields that are processed alike. -/

namespace Scheme

/-- The common attributes that processing looks at agree. -/
structure SameUse (c c' : Common) : Prop where
  name : c.name = c'.name
  default : c.default = c'.default
  constant : c.constant = c'.constant
  nonnull : c.nonnull = c'.nonnull
  ignoreNull : c.ignoreNull = c'.ignoreNull
  required : c.required = c'.required
  pre : c.pre = c'.pre
  errors : c.errors = c'.errors

theorem SameUse.refl (c : Common) : SameUse c c := ⟨rfl, rfl, rfl, rfl, rfl, rfl, rfl, rfl⟩

theorem SameUse.trans {a b c : Common} (h : SameUse a b) (h' : SameUse b c) : SameUse a c :=
  ⟨h.1.trans h'.1, h.2.trans h'.2, h.3.trans h'.3, h.4.trans h'.4, h.5.trans h'.5, h.6.trans h'.6, h.7.trans h'.7,
    h.8.trans h'.8⟩

/-- `f` and `f'` behave the same: `process` gives the same outcome for every value, phase, mode, location and call
depth, and a parent reads the same attributes. -/
structure Same (env : Env) (f f' : Field) : Prop where
  process : ∀ n v ph ser anc, process env n f v ph ser anc = process env n f' v ph ser anc
  common : (f.common? = none ∧ f'.common? = none) ∨ ∃ c c', f.common? = some c ∧ f'.common? = some c' ∧ SameUse c c'

theorem Same.refl (env : Env) (f : Field) : Same env f f := by
  refine ⟨fun _ _ _ _ _ => rfl, ?_⟩
  cases f.common? with
  | none => exact .inl ⟨rfl, rfl⟩
  | some c => exact .inr ⟨c, c, rfl, rfl, .refl c⟩

theorem Same.trans {env : Env} {f g h : Field} (a : Same env f g) (b : Same env g h) : Same env f h := by
  refine ⟨fun n v ph ser anc => (a.process ..).trans (b.process ..), ?_⟩
  rcases a.common with ⟨h1, h2⟩ | ⟨c, c', h1, h2, h3⟩
  · rcases b.common with ⟨h4, h5⟩ | ⟨d, d', h4, h5, h6⟩
    · exact .inl ⟨h1, h5⟩
    · rw [h2] at h4; cases h4
  · rcases b.common with ⟨h4, h5⟩ | ⟨d, d', h4, h5, h6⟩
    · rw [h2] at h4; cases h4
    · rw [h2] at h4; cases h4
      exact .inr ⟨c, d', h1, h5, h3.trans h6⟩

theorem Same.name {env : Env} {f g : Field} (h : Same env f g) : f.name = g.name := by
  unfold Field.name
  rcases h.common with ⟨h1, h2⟩ | ⟨c, c', h1, h2, h3⟩
  · rw [h1, h2]
  · rw [h1, h2]; exact h3.name

/-- Children: both resolve, to fields that behave the same. -/
def SameChild (env : Env) (f f' : Field) : Prop :=
  ∃ g g', resolve env f = some g ∧ resolve env f' = some g' ∧ Same env g g'

/-- What errors show of a field. -/
structure Looks (f f' : Field) : Prop where
  table : f.errorTable = f'.errorTable
  name : f.name = f'.name
  type : f.type = f'.type

theorem Looks.mkErr {f f' : Field} (h : Looks f f') : mkErr f = mkErr f' := by
  funext cls anc v t ps
  unfold Scheme.mkErr displayName
  rw [h.table, h.name]

theorem Looks.ancOr {f f' : Field} (h : Looks f f') : ancOr f = ancOr f' := by
  funext anc
  unfold Scheme.ancOr guaranteedName
  rw [h.name, h.type]

theorem looks_leaf {c c' : Common} (h : SameUse c c') (k : Leaf) : Looks (.leaf c k) (.leaf c' k) := by
  refine ⟨?_, h.name, rfl⟩
  cases k <;> simp [Field.errorTable, Field.customErrors, Field.common?, Field.classErrors, h.errors]

theorem processLeaf_same {env : Env} {c c' : Common} (h : SameUse c c') (k : Leaf) (v : Val) (ph : Phase) (ser : Bool)
    (anc : List Str) : processLeaf env c k v ph ser anc = processLeaf env c' k v ph ser anc := by
  have hl := looks_leaf h k
  have e1 := hl.mkErr
  have e2 := hl.ancOr
  have hn : ∀ v anc, isNull (.leaf c k) v anc = isNull (.leaf c' k) v anc := by
    intro v anc
    unfold isNull
    rw [e1]
    simp only [Field.common?, h.nonnull]
    have : nullView (.leaf c k) v = nullView (.leaf c' k) v := by cases k <;> rfl
    rw [this]
  have hu : ∀ v anc, unserializeLeaf env (.leaf c k) k v anc = unserializeLeaf env (.leaf c' k) k v anc := by
    intro v anc
    cases k <;> simp only [unserializeLeaf, e1]
  have hp : ∀ v anc, preprocess env (.leaf c k) c k v anc = preprocess env (.leaf c' k) c' k v anc := by
    intro v anc
    unfold preprocess
    simp only [e1, h.pre]
  have hv : ∀ v anc, validateLeaf env (.leaf c k) k v anc = validateLeaf env (.leaf c' k) k v anc := by
    intro v anc
    cases k <;> simp only [validateLeaf, validateText, e1]
  have hs : ∀ v, serializeLeaf env (.leaf c k) k v = serializeLeaf env (.leaf c' k) k v := by
    intro v
    cases k <;> simp only [serializeLeaf, e1]
  unfold processLeaf
  simp only [hn, hu, hp, hv, hs, e1, e2, h.constant]

/-- Lists related elementwise. -/
inductive All2 {α β : Type} (R : α → β → Prop) : List α → List β → Prop
  | nil : All2 R [] []
  | cons {a b l m} : R a b → All2 R l m → All2 R (a :: l) (b :: m)

section
variable {env : Env} {n : Nat} {ph : Phase} {ser : Bool}

theorem callChild_same {f f' : Field} (h : SameChild env f f') (v : Val) (anc : List Str) :
    callChild env (process env n) f v ph ser anc = callChild env (process env n) f' v ph ser anc := by
  obtain ⟨g, g', h1, h2, h3⟩ := h
  unfold callChild
  rw [h1, h2]
  exact h3.process ..

theorem seqLoop_same {f f' : Field} (h : SameChild env f f') (anc : List Str) (i : Nat) (l : List Val) :
    seqLoop env (process env n) f ph ser anc i l = seqLoop env (process env n) f' ph ser anc i l := by
  induction l generalizing i with
  | nil => rfl
  | cons v r ih => simp only [seqLoop, callChild_same h, ih]

theorem tupLoop_same {fs fs' : List Field} (h : All2 (SameChild env) fs fs') (anc : List Str) (i : Nat) (l : List Val) :
    tupLoop env (process env n) ph ser anc i fs l = tupLoop env (process env n) ph ser anc i fs' l := by
  induction h generalizing i l with
  | nil => rfl
  | cons h _ ih =>
    cases l with
    | nil => rfl
    | cons v r => simp only [tupLoop, callChild_same h, ih]

theorem unionLoop_same {fs fs' : List Field} (h : All2 (SameChild env) fs fs') (anc : List Str) (v : Val) :
    unionLoop env (process env n) v ph ser anc fs = unionLoop env (process env n) v ph ser anc fs' := by
  induction h with
  | nil => rfl
  | cons h _ ih => simp only [unionLoop, callChild_same h, ih]

/-- Key fields. -/
inductive SameKey (env : Env) : Option Field → Option Field → Prop
  | none : SameKey env none none
  | some {k k'} : Same env k k' → SameKey env (some k) (some k')

theorem mapKey_same {f f' : Field} (hl : Looks f f') {k k' : Option Field} (h : SameKey env k k') (whole : Val)
    (anc : List Str) (x : Val) :
    mapKey env (process env n) f whole k ph ser anc x = mapKey env (process env n) f' whole k' ph ser anc x := by
  cases h with
  | none => simp only [mapKey, hl.mkErr]
  | some h => simp only [mapKey, hl.mkErr, h.process]

theorem mapLoop_same {f f' : Field} (hl : Looks f f') {k k' : Option Field} (h : SameKey env k k') {w w' : Field}
    (hw : SameChild env w w') (whole : Val) (anc : List Str) (d acc : List (Val × Val)) (b : Bool) :
    mapLoop env (process env n) f whole k w ph ser anc d acc b = mapLoop env (process env n) f' whole k' w' ph ser anc d acc b := by
  induction d generalizing acc b with
  | nil => rfl
  | cons e r ih =>
    obtain ⟨x, y⟩ := e
    simp only [mapLoop, mapKey_same hl h, callChild_same hw, ih]

theorem mapRequired_same {f f' : Field} (hl : Looks f f') (anc : List Str) (ks : List Val) (acc : List (Val × Val)) (b : Bool) :
    mapRequired env f anc ks acc b = mapRequired env f' anc ks acc b := by
  induction ks generalizing acc b with
  | nil => rfl
  | cons k r ih => simp only [mapRequired, hl.mkErr, ih]

/-- Members: the same keys in the same order. -/
def SameMembers (env : Env) (d d' : List (Str × Field)) : Prop :=
  All2 (fun a b => a.1 = b.1 ∧ SameChild env a.2 b.2) d d'

theorem SameMembers.keys {d d' : List (Str × Field)} (h : SameMembers env d d') : d.map (·.1) = d'.map (·.1) := by
  induction h with
  | nil => rfl
  | cons h _ ih => simp [h.1, ih]

theorem SameMembers.lookup {d d' : List (Str × Field)} (h : SameMembers env d d') (name : Str) :
    (d.lookup name = none ∧ d'.lookup name = none) ∨
      ∃ f f', d.lookup name = some f ∧ d'.lookup name = some f' ∧ SameChild env f f' := by
  induction h with
  | nil => exact .inl ⟨rfl, rfl⟩
  | @cons a b l m h _ ih =>
    obtain ⟨x, f⟩ := a
    obtain ⟨y, f'⟩ := b
    obtain ⟨h1, h2⟩ := h
    cases h1
    simp only [List.lookup_cons]
    cases hx : name == x with
    | true => exact .inr ⟨f, f', rfl, rfl, h2⟩
    | false => exact ih

theorem structField_same {f f' : Field} (h : SameChild env f f') (anc : List Str) (name : Str) (fv : Val) (st : SState) :
    structField env (process env n) ph ser anc name f fv st = structField env (process env n) ph ser anc name f' fv st := by
  obtain ⟨g, g', h1, h2, h3⟩ := h
  unfold structField
  rw [h1, h2]
  rcases h3.common with ⟨k1, k2⟩ | ⟨c, c', k1, k2, k3⟩
  · simp only [k1, k2]
  · simp only [k1, k2, k3.ignoreNull, h3.process]

theorem structStep_same {p p' : Field} (hl : Looks p p') {d d' : List (Str × Field)} (h : SameMembers env d d')
    (value : List (Val × Val)) (part : Bool) (anc : List Str) (name : Str) (st : SState) :
    structStep env (process env n) p value d ph ser part anc name st =
      structStep env (process env n) p' value d' ph ser part anc name st := by
  unfold structStep
  rcases h.lookup name with ⟨h1, h2⟩ | ⟨f, f', h1, h2, h3⟩
  · rw [h1, h2]
  · rw [h1, h2]
    simp only [structField_same h3, hl.mkErr]
    obtain ⟨g, g', k1, k2, k3⟩ := h3
    rw [k1, k2]
    rcases k3.common with ⟨m1, m2⟩ | ⟨c, c', m1, m2, m3⟩
    · simp only [Option.bind_some, m1, m2]
    · simp only [Option.bind_some, m1, m2, m3.default, m3.required, structField_same ⟨g, g', k1, k2, k3⟩]

theorem structLoop_same {p p' : Field} (hl : Looks p p') {d d' : List (Str × Field)} (h : SameMembers env d d')
    (value : List (Val × Val)) (part : Bool) (anc : List Str) (order : List Str) (st : SState) :
    structLoop env (process env n) p value d ph ser part anc order st =
      structLoop env (process env n) p' value d' ph ser part anc order st := by
  induction order generalizing st with
  | nil => rfl
  | cons x r ih => simp only [structLoop, structStep_same hl h, ih]

theorem structUnknown_same {p p' : Field} (hl : Looks p p') (anc : List Str) (ks : List Val) (st : SState) :
    structUnknown env p anc ks st = structUnknown env p' anc ks st := by
  induction ks generalizing st with
  | nil => rfl
  | cons k r ih => simp only [structUnknown, hl.mkErr, ih]

theorem structBody_same {p p' : Field} (hl : Looks p p') {d d' : List (Str × Field)} (h : SameMembers env d d')
    (strict : Bool) (order : List Str) (value : List (Val × Val)) (part : Bool) (anc : List Str) :
    structBody env (process env n) p strict order d value ph ser part anc =
      structBody env (process env n) p' strict order d' value ph ser part anc := by
  simp only [structBody, structLoop_same hl h, structUnknown_same hl]

end

section
variable {env : Env} {c c' : Common} (h : SameUse c c')
include h

theorem same_leaf (k : Leaf) : Same env (.leaf c k) (.leaf c' k) := by
  refine ⟨fun n v ph ser anc => ?_, .inr ⟨c, c', rfl, rfl, h⟩⟩
  cases n with
  | zero => rfl
  | succ n => exact processLeaf_same h k v ph ser anc

theorem looks_of {f f' : Field} (hc : f.common? = some c) (hc' : f'.common? = some c') (ht : f.type = f'.type)
    (hcl : f.classErrors = f'.classErrors) (hnl : (∀ c k, f ≠ .leaf c k) ∧ ∀ c k, f' ≠ .leaf c k) : Looks f f' := by
  refine ⟨?_, ?_, ht⟩
  · unfold Field.errorTable
    rw [hcl]
    congr 1
    have key : ∀ (f : Field) (c : Common), f.common? = some c → (∀ c k, f ≠ .leaf c k) → f.customErrors = c.errors.reverse := by
      intro f c hc hn
      cases f with
      | leaf c k => exact absurd rfl (hn c k)
      | undef s => simp [Field.common?] at hc
      | _ => simp only [Field.common?, Option.some.injEq] at hc; subst hc; rfl
    rw [key f c hc hnl.1, key f' c' hc' hnl.2, h.errors]
  · unfold Field.name
    rw [hc, hc']; exact h.name

theorem isNull_same {f f' : Field} (hc : f.common? = some c) (hc' : f'.common? = some c') (hl : Looks f f')
    (hnl : (∀ c k, f ≠ .leaf c k) ∧ ∀ c k, f' ≠ .leaf c k) : isNull f = isNull f' := by
  funext v anc
  have key : ∀ f : Field, (∀ c k, f ≠ .leaf c k) → nullView f v = v := by
    intro f hn
    cases f with
    | leaf c k => exact absurd rfl (hn c k)
    | _ => rfl
  unfold isNull
  simp only [hc, hc', key f hnl.1, key f' hnl.2, hl.mkErr, h.nonnull]

theorem rawPre_same : rawPre env c = rawPre env c' := by
  funext v; unfold rawPre; rw [h.pre]

theorem same_sequence {item item' : Field} (hi : SameChild env item item') (mn mx : Option Nat) (u : Bool) :
    Same env (.sequence c item mn mx u) (.sequence c' item' mn mx u) := by
  have nl : (∀ a k, Field.sequence c item mn mx u ≠ .leaf a k) ∧ ∀ a k, Field.sequence c' item' mn mx u ≠ .leaf a k :=
    ⟨fun _ _ => nofun, fun _ _ => nofun⟩
  have hl := looks_of h (f := .sequence c item mn mx u) (f' := .sequence c' item' mn mx u) rfl rfl rfl rfl nl
  refine ⟨fun n v ph ser anc => ?_, .inr ⟨c, c', rfl, rfl, h⟩⟩
  cases n with
  | zero => rfl
  | succ n =>
    show processSequence .. = processSequence ..
    unfold processSequence
    simp only [isNull_same h rfl rfl hl nl, hl.mkErr, hl.ancOr, rawPre_same h, seqLoop_same hi]

theorem same_map {k k' : Option Field} (hk : SameKey env k k') {w w' : Field} (hw : SameChild env w w') (r : List Val) :
    Same env (.map c k w r) (.map c' k' w' r) := by
  have nl : (∀ a x, Field.map c k w r ≠ .leaf a x) ∧ ∀ a x, Field.map c' k' w' r ≠ .leaf a x :=
    ⟨fun _ _ => nofun, fun _ _ => nofun⟩
  have hl := looks_of h (f := .map c k w r) (f' := .map c' k' w' r) rfl rfl rfl rfl nl
  refine ⟨fun n v ph ser anc => ?_, .inr ⟨c, c', rfl, rfl, h⟩⟩
  cases n with
  | zero => rfl
  | succ n =>
    show processMap .. = processMap ..
    unfold processMap
    simp only [isNull_same h rfl rfl hl nl, hl.mkErr, hl.ancOr, rawPre_same h, mapLoop_same hl hk hw, mapRequired_same hl]

omit h in
theorem All2.length {α β : Type} {R : α → β → Prop} {l : List α} {m : List β} (h : All2 R l m) : l.length = m.length := by
  induction h with
  | nil => rfl
  | cons _ _ ih => simp [ih]

theorem same_tuple {vs vs' : List Field} (hv : All2 (SameChild env) vs vs') : Same env (.tuple c vs) (.tuple c' vs') := by
  have nl : (∀ a x, Field.tuple c vs ≠ .leaf a x) ∧ ∀ a x, Field.tuple c' vs' ≠ .leaf a x :=
    ⟨fun _ _ => nofun, fun _ _ => nofun⟩
  have hl := looks_of h (f := .tuple c vs) (f' := .tuple c' vs') rfl rfl rfl rfl nl
  refine ⟨fun n v ph ser anc => ?_, .inr ⟨c, c', rfl, rfl, h⟩⟩
  cases n with
  | zero => rfl
  | succ n =>
    show processTuple .. = processTuple ..
    unfold processTuple
    simp only [isNull_same h rfl rfl hl nl, hl.mkErr, hl.ancOr, rawPre_same h, tupLoop_same hv, hv.length]

theorem same_union {vs vs' : List Field} (hv : All2 (SameChild env) vs vs') : Same env (.union c vs) (.union c' vs') := by
  have nl : (∀ a x, Field.union c vs ≠ .leaf a x) ∧ ∀ a x, Field.union c' vs' ≠ .leaf a x :=
    ⟨fun _ _ => nofun, fun _ _ => nofun⟩
  have hl := looks_of h (f := .union c vs) (f' := .union c' vs') rfl rfl rfl rfl nl
  refine ⟨fun n v ph ser anc => ?_, .inr ⟨c, c', rfl, rfl, h⟩⟩
  cases n with
  | zero => rfl
  | succ n =>
    show processUnion .. = processUnion ..
    unfold processUnion
    simp only [isNull_same h rfl rfl hl nl, hl.mkErr, hl.ancOr, unionLoop_same hv]

theorem structPre_same {f f' : Field} (hl : Looks f f') : structPre env f c = structPre env f' c' := by
  funext v anc; unfold structPre; rw [h.pre, hl.mkErr]

theorem same_structure {d d' : List (Str × Field)} (hd : SameMembers env d d') (s : Bool) (ko : List Str) :
    Same env (.structure c d s ko) (.structure c' d' s ko) := by
  have nl : (∀ a x, Field.structure c d s ko ≠ .leaf a x) ∧ ∀ a x, Field.structure c' d' s ko ≠ .leaf a x :=
    ⟨fun _ _ => nofun, fun _ _ => nofun⟩
  have hl := looks_of h (f := .structure c d s ko) (f' := .structure c' d' s ko) rfl rfl rfl rfl nl
  refine ⟨fun n v ph ser anc => ?_, .inr ⟨c, c', rfl, rfl, h⟩⟩
  cases n with
  | zero => rfl
  | succ n =>
    show processStructure .. = processStructure ..
    unfold processStructure
    simp only [isNull_same h rfl rfl hl nl, hl.mkErr, hl.ancOr, structPre_same h hl, structBody_same hl hd, hd.keys]

/-- Variants: the same identities in the same order. -/
def SameVariants (env : Env) (vs vs' : List (Val × List (Str × Field))) : Prop :=
  All2 (fun a b => a.1 = b.1 ∧ SameMembers env a.2 b.2) vs vs'

omit h in
theorem SameVariants.get {vs vs' : List (Val × List (Str × Field))} (h : SameVariants env vs vs') (id : Val) :
    (variantGet vs id = none ∧ variantGet vs' id = none) ∨
      ∃ d d', variantGet vs id = some d ∧ variantGet vs' id = some d' ∧ SameMembers env d d' := by
  induction h with
  | nil => exact .inl ⟨rfl, rfl⟩
  | @cons a b l m h _ ih =>
    obtain ⟨x, f⟩ := a
    obtain ⟨y, f'⟩ := b
    obtain ⟨h1, h2⟩ := h
    cases h1
    simp only [variantGet]
    by_cases hx : pyEq id x = true
    · simp only [hx, if_true]; exact .inr ⟨f, f', rfl, rfl, h2⟩
    · simp only [hx]; exact ih

theorem same_poly {disc disc' : Field} (hdisc : Same env disc disc') {vs vs' : List (Val × List (Str × Field))}
    (hvs : SameVariants env vs vs') (s : Bool) (ko : List Str) :
    Same env (.poly c disc vs s ko) (.poly c' disc' vs' s ko) := by
  have nl : (∀ a x, Field.poly c disc vs s ko ≠ .leaf a x) ∧ ∀ a x, Field.poly c' disc' vs' s ko ≠ .leaf a x :=
    ⟨fun _ _ => nofun, fun _ _ => nofun⟩
  have hl := looks_of h (f := .poly c disc vs s ko) (f' := .poly c' disc' vs' s ko) rfl rfl rfl rfl nl
  refine ⟨fun n v ph ser anc => ?_, .inr ⟨c, c', rfl, rfl, h⟩⟩
  cases n with
  | zero => rfl
  | succ n =>
    show processPoly .. = processPoly ..
    unfold processPoly
    simp only [isNull_same h rfl rfl hl nl, hl.ancOr]
    generalize ancOr (Field.poly c' disc' vs' s ko) anc = anc
    cases isNull (Field.poly c' disc' vs' s ko) v anc with
    | error e => rfl
    | ok b =>
      cases b with
      | true => rfl
      | false =>
        simp only [except_bind_ok, Bool.false_eq_true, if_false]
        cases v with
        | dict d =>
          simp only [structPre_same h hl]
          cases structPre env (Field.poly c' disc' vs' s ko) c' (.dict d) anc with
          | error e => rfl
          | ok w =>
            simp only [except_bind_ok]
            cases w with
            | dict d =>
              simp only [hdisc.name, hl.mkErr, hdisc.process]
              congr 1
              congr 1
              funext id
              congr 1
              rcases hvs.get id with ⟨h1, h2⟩ | ⟨d, d', h1, h2, h3⟩
              · rw [h1, h2]
              · rw [h1, h2]
                have he : d.isEmpty = d'.isEmpty := by
                  cases h3 <;> rfl
                simp only [he, structBody_same hl h3, h3.keys]
            | _ => rfl
        | _ => simp only [hl.mkErr]

end

end Scheme
